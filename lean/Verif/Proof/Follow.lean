import Verif.Proof.First

/-! # The computed FOLLOW sets -/

set_option linter.unusedSectionVars false

namespace Verif

open Spec

variable {T : Type} [DecidableEq T]

namespace FirstFollow

variable {eps init : T} {ps : List (Production T)} {g : Grammar T}

theorem terminal_not_nullable {x : T} (h : ¬ IsNonTerminal ps x) : ¬ Nullable eps ps x := by
  intro hn
  have := hn.terminal_eq h
  simp at this

theorem mem_rhs_ne_eps (G : GrammarOf eps init ps g) {p : Production T} (hp : p ∈ ps) {x : T}
    (hx : x ∈ rhs eps p) : x ≠ eps := by
  rintro rfl
  unfold rhs at hx
  split at hx
  · simp at hx
  · rename_i hne
    have := (G.wf p hp).2.2 hx
    obtain ⟨y, hy⟩ := List.length_eq_one_iff.1 this
    rw [hy] at hx hne
    simp at hx
    simp [hx] at hne

theorem eps_not_nt (G : GrammarOf eps init ps g) : ¬ IsNonTerminal ps eps := by
  rintro ⟨q, hq, e⟩; exact (G.wf q hq).1 e

namespace FirstSpec

variable {fm : SymbolsMap T}

theorem eps_mem (FS : FirstSpec eps ps fm) {x : T} (hk : IsNonTerminal ps x ∨ IsTerminal ps x)
    (hne : x ≠ eps) : eps ∈ look fm x ↔ Nullable eps ps x := by
  by_cases hx : IsNonTerminal ps x
  · rw [FS.mem_nt x hx]
    constructor
    · rintro (⟨_, h⟩ | h)
      · exact h
      · exact absurd rfl h.2.1
    · intro h; exact .inl ⟨rfl, h⟩
  · have ht : IsTerminal ps x := hk.resolve_left hx
    rw [look_of_get (FS.inv.term x ht), List.mem_singleton]
    constructor
    · intro e; exact absurd e.symm hne
    · intro h; exact absurd h (terminal_not_nullable hx)

theorem mem_iff (FS : FirstSpec eps ps fm) {x : T} (hk : IsNonTerminal ps x ∨ IsTerminal ps x)
    {a : T} (ha : a ≠ eps) : a ∈ look fm x ↔ CanStart eps ps x a := by
  by_cases hx : IsNonTerminal ps x
  · rw [FS.mem_nt x hx]
    constructor
    · rintro (⟨h, _⟩ | h)
      · exact absurd h ha
      · exact h
    · exact .inr
  · have ht : IsTerminal ps x := hk.resolve_left hx
    rw [look_of_get (FS.inv.term x ht), List.mem_singleton]
    constructor
    · rintro rfl; exact .self ht ha
    · rintro ⟨_, _, v, hv⟩
      have := hv.terminal_eq hx
      simp at this
      exact this.1

end FirstSpec

/-- The invariant of the FOLLOW map. -/
structure FollowInv (eps : T) (ps : List (Production T)) (m : SymbolsMap T) : Prop where
  dom : ∀ x, (m.get x).isSome ↔ IsNonTerminal ps x
  nodup : ∀ x, (look m x).Nodup
  sound : ∀ x, ∀ a ∈ look m x, FollowRule eps ps x a

theorem FollowInv.get_some {m : SymbolsMap T} (I : FollowInv eps ps m) {x : T}
    (h : IsNonTerminal ps x) : m.get x = some (look m x) := by
  have := (I.dom x).2 h
  cases hm : m.get x with
  | none => simp [hm] at this
  | some s => simp [look, hm]

theorem FollowInv.insert {m : SymbolsMap T} (I : FollowInv eps ps m) {x : T}
    (hx : IsNonTerminal ps x) {s : List T} (hnd : s.Nodup) (hs : ∀ a ∈ s, FollowRule eps ps x a) :
    FollowInv eps ps (m.insert x s) where
  dom y := by
    rw [HMap.get_insert]
    split
    · rename_i e; subst e; simp [hx]
    · exact I.dom y
  nodup y := by
    rw [look_insert]
    split
    · exact hnd
    · exact I.nodup y
  sound y a ha := by
    rw [look_insert] at ha
    split at ha
    · rename_i e; subst e; exact hs a ha
    · exact I.sound y a ha

theorem MapGrows.look_eq {nts : List T} {m m' : SymbolsMap T} {u : Bool} (h : MapGrows nts m m' u)
    (e : u = false) : look m' = look m := by
  funext y; unfold look; rw [h.same e]

theorem drop_of_getElem? {xs : List T} {i : Nat} {x : T} (h : xs[i]? = some x) :
    xs.drop i = x :: xs.drop (i + 1) := by
  obtain ⟨hi, rfl⟩ := List.getElem?_eq_some_iff.1 h
  exact List.drop_eq_getElem_cons hi

theorem split_of_getElem? {xs : List T} {i : Nat} {x : T} (h : xs[i]? = some x) :
    xs = xs.take i ++ x :: xs.drop (i + 1) := by
  rw [← drop_of_getElem? h, List.take_append_drop]

/-! ## FOLLOW of the input goes to the nullable tail -/

theorem followFromInput_spec (h : HashOrder T) (G : GrammarOf eps init ps g) (nts : List T)
    (hnts : ∀ x, x ∈ nts ↔ IsNonTerminal ps x) {m : SymbolsMap T} (I : FollowInv eps ps m)
    {p : Production T} (hp : p ∈ ps) {u t : List T} {x : T} (hr : rhs eps p = u ++ x :: t)
    (ht : StrNullable eps ps t) :
    ∃ m' up, followFromInput h g p x m = .ok (m', up) ∧ FollowInv eps ps m' ∧ MapGrows nts m m' up ∧
      (IsNonTerminal ps x → ∀ a ∈ look m p.input, a ∈ look m' x) := by
  unfold followFromInput
  by_cases hc : x ≠ p.input ∧ g.isNonTerminal x = true
  · rw [if_pos hc]
    have hx := (isNT_iff G x).1 hc.2
    rw [I.get_some ⟨p, hp, rfl⟩, Out.unwrap_some, Out.bind_ok, borrowWhile, I.get_some hx]
    simp only [if_neg hc.1, Out.bind_ok]
    have hg := grows_insertMany (look m x) (h.ord (.follow p.input) (look m p.input))
    have hmem := mem_insertMany (look m x) (h.ord (.follow p.input) (look m p.input))
    refine ⟨_, _, rfl, I.insert hx (nodup_insertMany _ (I.nodup x)) ?_,
      MapGrows.insert ((hnts x).2 hx) (I.get_some hx) hg, ?_⟩
    · intro a ha
      rw [hmem, h.mem_ord] at ha
      rcases ha with ha | ha
      · exact I.sound x a ha
      · exact .last hp hr hx ht (I.sound _ a ha)
    · intro _ a ha
      rw [look_insert, if_pos rfl, hmem, h.mem_ord]
      exact .inr ha
  · rw [if_neg hc]
    refine ⟨m, false, rfl, I, .refl _ _, ?_⟩
    intro hx a ha
    by_cases e : x = p.input
    · rw [e]; exact ha
    · exact absurd ⟨e, (isNT_iff G x).2 hx⟩ hc

theorem lastEpsilonChainLoop_spec (h : HashOrder T) (G : GrammarOf eps init ps g) (nts : List T)
    (hnts : ∀ x, x ∈ nts ↔ IsNonTerminal ps x) {fm : SymbolsMap T} (FS : FirstSpec eps ps fm)
    {p : Production T} (hp : p ∈ ps) (hr : rhs eps p = p.output) (i : Nat) (hi : i < p.output.length)
    (hnull : StrNullable eps ps (p.output.drop (i + 1))) (m : SymbolsMap T)
    (I : FollowInv eps ps m) :
    ∃ m' up, lastEpsilonChainLoop h g fm p i m = .ok (m', up) ∧ FollowInv eps ps m' ∧
      MapGrows nts m m' up ∧
      (∀ j x, j ≤ i → p.output[j]? = some x → IsNonTerminal ps x →
        StrNullable eps ps (p.output.drop (j + 1)) → ∀ a ∈ look m p.input, a ∈ look m' x) := by
  induction i generalizing m with
  | zero =>
    have hget : p.output[0]? = some p.output[0] := List.getElem?_eq_getElem hi
    have hmemx : p.output[0] ∈ p.output := List.getElem_mem hi
    obtain ⟨m1, u1, h1, h2, h3, h4⟩ := followFromInput_spec h G nts hnts I hp (x := p.output[0])
      (u := p.output.take 0) (t := p.output.drop 1) (by rw [hr]; exact split_of_getElem? hget) hnull
    refine ⟨m1, u1, ?_, h2, h3, ?_⟩
    · simp [lastEpsilonChainLoop, hget, h1, FS.inv.get_some (symbol_kind hp hmemx)]
    · intro j x hj hx hnt _
      obtain rfl : j = 0 := by omega
      rw [hget] at hx
      cases hx
      exact h4 hnt
  | succ i ih =>
    have hget : p.output[i + 1]? = some p.output[i + 1] := List.getElem?_eq_getElem hi
    have hmemx : p.output[i + 1] ∈ p.output := List.getElem_mem hi
    have hne : p.output[i + 1] ≠ eps := mem_rhs_ne_eps G hp (by rw [hr]; exact hmemx)
    have hk := symbol_kind hp hmemx
    obtain ⟨m1, u1, h1, h2, h3, h4⟩ := followFromInput_spec h G nts hnts I hp (x := p.output[i + 1])
      (u := p.output.take (i + 1)) (t := p.output.drop (i + 1 + 1))
      (by rw [hr]; exact split_of_getElem? hget) hnull
    by_cases hc : g.epsilonSymbol ∈ look fm p.output[i + 1]
    · have hn : Nullable eps ps p.output[i + 1] := by
        rw [G.eps_eq] at hc; exact (FS.eps_mem hk hne).1 hc
      have hnull' : StrNullable eps ps (p.output.drop (i + 1)) := by
        rw [drop_of_getElem? hget, strNullable_cons]
        exact ⟨hn, hnull⟩
      obtain ⟨m2, u2, k1, k2, k3, k4⟩ := ih (by omega) hnull' m1 h2
      refine ⟨m2, u1 || u2, ?_, k2, h3.trans k3, ?_⟩
      · simp [lastEpsilonChainLoop, hget, h1, FS.inv.get_some hk, hc, k1]
      · intro j x hj hx hnt hjn a ha
        by_cases hji : j = i + 1
        · subst hji
          rw [hget] at hx
          cases hx
          exact k3.sub _ _ (h4 hnt a ha)
        · exact k4 j x (by omega) hx hnt hjn a (h3.sub _ _ ha)
    · have hn : ¬ Nullable eps ps p.output[i + 1] := by
        rw [G.eps_eq] at hc; exact fun h' => hc ((FS.eps_mem hk hne).2 h')
      refine ⟨m1, u1, ?_, h2, h3, ?_⟩
      · simp [lastEpsilonChainLoop, hget, h1, FS.inv.get_some hk, hc]
      · intro j x hj hx hnt hjn
        by_cases hji : j = i + 1
        · subst hji
          rw [hget] at hx
          cases hx
          exact h4 hnt
        · exfalso
          apply hn
          apply hjn
          apply List.mem_of_getElem? (i := i + 1 - (j + 1))
          rw [List.getElem?_drop]
          rw [show j + 1 + (i + 1 - (j + 1)) = i + 1 by omega]
          exact hget

/-! ## FIRST of what comes after -/

/-- The terminals that the symbols at the given indexes can start with. -/
def IdxFirst (eps : T) (ps : List (Production T)) (xs : List T) (is : List Nat) (a : T) : Prop :=
  ∃ j ∈ is, ∃ z, xs[j]? = some z ∧ CanStart eps ps z a

theorem updateLambdaChain_spec (h : HashOrder T) (G : GrammarOf eps init ps g) {fm : SymbolsMap T}
    (FS : FirstSpec eps ps fm) {p : Production T} (hp : p ∈ ps) (is : List Nat)
    (his : ∀ j ∈ is, j < p.output.length) (cur : List T) (hnd : cur.Nodup) :
    ∃ cur' up, updateLambdaChain h g fm p is cur = .ok (cur', up) ∧ Grows cur cur' up ∧ cur'.Nodup ∧
      ∀ a, a ∈ cur' ↔ a ∈ cur ∨ IdxFirst eps ps p.output is a := by
  induction is generalizing cur with
  | nil => exact ⟨cur, false, rfl, .refl _, hnd, by simp [IdxFirst]⟩
  | cons i is ih =>
    have hi := his i (by simp)
    have hget : p.output[i]? = some p.output[i] := List.getElem?_eq_getElem hi
    have hk := symbol_kind hp (List.getElem_mem hi)
    have hg := grows_insertMany cur ((h.ord (.first p.output[i]) (look fm p.output[i])).filter
      (fun y => g.epsilonSymbol ≠ y))
    have hmem := mem_insertMany cur ((h.ord (.first p.output[i]) (look fm p.output[i])).filter
      (fun y => g.epsilonSymbol ≠ y))
    have hn := nodup_insertMany ((h.ord (.first p.output[i]) (look fm p.output[i])).filter
      (fun y => g.epsilonSymbol ≠ y)) hnd
    obtain ⟨c2, u2, k1, k2, k3, k4⟩ := ih (fun j hj => his j (by simp [hj])) _ hn
    refine ⟨c2, _, ?_, hg.trans k2, k3, ?_⟩
    · simp only [updateLambdaChain, hget, Out.unwrap_some, Out.bind_ok, FS.inv.get_some hk, k1]
    · intro a
      rw [k4, hmem, List.mem_filter, h.mem_ord, or_assoc]
      refine or_congr_right ?_
      constructor
      · rintro (⟨h1, h2⟩ | ⟨j, hj, z, hz, ha⟩)
        · have hne : a ≠ eps := by
            simp only [decide_eq_true_eq, G.eps_eq] at h2; exact fun e => h2 e.symm
          exact ⟨i, by simp, _, hget, (FS.mem_iff hk hne).1 h1⟩
        · exact ⟨j, by simp [hj], z, hz, ha⟩
      · rintro ⟨j, hj, z, hz, ha⟩
        rcases List.mem_cons.1 hj with rfl | hj
        · rw [hget] at hz
          cases hz
          refine .inl ⟨(FS.mem_iff hk ha.2.1).2 ha, ?_⟩
          simp only [decide_eq_true_eq, G.eps_eq]
          exact fun e => ha.2.1 e.symm
        · exact .inr ⟨j, hj, z, hz, ha⟩

/-- What `first_indexes` means when the loop is about to look at index `i`. -/
structure IdxInv (eps : T) (ps : List (Production T)) (xs : List T) (i : Nat) (is : List Nat) :
    Prop where
  lt : ∀ j ∈ is, j < xs.length
  first : ∀ y, xs[i + 1]? = some y → Nullable eps ps y →
    ∀ a, IdxFirst eps ps xs is a ∨ CanStart eps ps y a ↔ StrFirst eps ps (xs.drop (i + 1)) a

theorem followSymbol_spec (h : HashOrder T) (G : GrammarOf eps init ps g) (nts : List T)
    (hnts : ∀ x, x ∈ nts ↔ IsNonTerminal ps x) {fm : SymbolsMap T} (FS : FirstSpec eps ps fm)
    {p : Production T} (hp : p ∈ ps) (hr : rhs eps p = p.output) (i : Nat)
    (hi : i + 1 < p.output.length) (is : List Nat) (J : IdxInv eps ps p.output i is)
    (m : SymbolsMap T) (I : FollowInv eps ps m) :
    ∃ m' is' up, followSymbol h g fm p i is m = .ok (m', is', up) ∧ FollowInv eps ps m' ∧
      MapGrows nts m m' up ∧ (∀ k, i = k + 1 → IdxInv eps ps p.output k is') ∧
      (∀ x, p.output[i]? = some x → IsNonTerminal ps x → p.output[i + 1]? ≠ some x →
        ∀ a, StrFirst eps ps (p.output.drop (i + 1)) a → a ∈ look m' x) := by
  have hgx : p.output[i]? = some p.output[i] := List.getElem?_eq_getElem (by omega)
  have hgy : p.output[i + 1]? = some p.output[i + 1] := List.getElem?_eq_getElem hi
  have hmy : p.output[i + 1] ∈ p.output := List.getElem_mem hi
  have hmx : p.output[i] ∈ p.output := List.getElem_mem (by omega)
  have hkx := symbol_kind hp hmx
  have hky := symbol_kind hp hmy
  have hney : p.output[i + 1] ≠ eps := mem_rhs_ne_eps G hp (by rw [hr]; exact hmy)
  generalize p.output[i] = x at *
  generalize p.output[i + 1] = y at *
  unfold followSymbol
  simp only [hgx, Out.unwrap_some, Out.bind_ok]
  by_cases hx : IsNonTerminal ps x
  · rw [if_pos ((isNT_iff G x).2 hx)]
    unfold followNonTerminalSymbol
    simp only [hgy, Out.unwrap_some, Out.bind_ok]
    by_cases hxy : x = y
    · subst hxy
      simp only [ne_eq, not_true_eq_false, if_false]
      refine ⟨m, is, false, rfl, I, .refl _ _, ?_, ?_⟩
      · rintro k rfl
        refine ⟨J.lt, ?_⟩
        intro z hz hn a
        rw [hgx] at hz
        cases hz
        rw [J.first x hgy hn a, drop_of_getElem? hgx, strFirst_cons, drop_of_getElem? hgy,
          strFirst_cons]
        constructor
        · rintro (h' | h')
          · exact .inl h'
          · exact .inr ⟨hn, .inr h'⟩
        · rintro (h' | ⟨_, h'⟩)
          · exact .inl h'
          · exact h'
      · intro z hz _ hne
        cases hz
        exact absurd rfl hne
    · simp only [ne_eq, hxy, not_false_eq_true, if_true, FS.inv.get_some hky, Out.unwrap_some,
        Out.bind_ok, I.get_some hx]
      generalize hcl : (if g.epsilonSymbol ∈ look fm y then is else []) = cleared
      have hcl' : (if ¬ g.epsilonSymbol ∈ look fm y then [] else is) = cleared := by
        rw [← hcl]; split <;> simp_all
      rw [hcl']
      have hlt : ∀ j ∈ cleared ++ [i + 1], j < p.output.length := by
        intro j hj
        rw [List.mem_append] at hj
        rcases hj with hj | hj
        · rw [← hcl] at hj
          split at hj
          · exact J.lt j hj
          · simp at hj
        · simp at hj; omega
      have hU : ∀ a, IdxFirst eps ps p.output (cleared ++ [i + 1]) a ↔
          StrFirst eps ps (p.output.drop (i + 1)) a := by
        intro a
        have hsplit : IdxFirst eps ps p.output (cleared ++ [i + 1]) a ↔
            IdxFirst eps ps p.output cleared a ∨ CanStart eps ps y a := by
          constructor
          · rintro ⟨j, hj, z, hz, ha⟩
            rw [List.mem_append] at hj
            rcases hj with hj | hj
            · exact .inl ⟨j, hj, z, hz, ha⟩
            · simp only [List.mem_singleton] at hj
              subst hj
              rw [hgy] at hz
              cases hz
              exact .inr ha
          · rintro (⟨j, hj, z, hz, ha⟩ | ha)
            · exact ⟨j, by simp [hj], z, hz, ha⟩
            · exact ⟨i + 1, by simp, y, hgy, ha⟩
        rw [hsplit]
        by_cases hn : Nullable eps ps y
        · have : g.epsilonSymbol ∈ look fm y := by
            rw [G.eps_eq]; exact (FS.eps_mem hky hney).2 hn
          rw [if_pos this] at hcl
          subst hcl
          exact J.first y hgy hn a
        · have : ¬ g.epsilonSymbol ∈ look fm y := by
            rw [G.eps_eq]; exact fun h' => hn ((FS.eps_mem hky hney).1 h')
          rw [if_neg this] at hcl
          subst hcl
          rw [drop_of_getElem? hgy, strFirst_cons]
          constructor
          · rintro (⟨j, hj, _⟩ | h')
            · simp at hj
            · exact .inl h'
          · rintro (h' | ⟨h', _⟩)
            · exact .inr h'
            · exact absurd h' hn
      obtain ⟨c1, u1, k1, k2, k3, k4⟩ :=
        updateLambdaChain_spec h G FS hp (cleared ++ [i + 1]) hlt (look m x) (I.nodup x)
      refine ⟨m.insert x c1, cleared ++ [i + 1], u1, ?_, I.insert hx k3 ?_,
        MapGrows.insert ((hnts x).2 hx) (I.get_some hx) k2, ?_, ?_⟩
      · simp only [k1, Out.bind_ok]
      · intro a ha
        rw [k4] at ha
        rcases ha with ha | ha
        · exact I.sound x a ha
        · refine .first (u := p.output.take i) hp ?_ hx ?_ ((hU a).1 ha)
          · rw [hr]; exact split_of_getElem? hgx
          · rw [drop_of_getElem? hgy]
            simp only [List.head?_cons, ne_eq, Option.some.injEq]
            exact fun e => hxy e.symm
      · rintro k rfl
        refine ⟨hlt, ?_⟩
        intro z hz hn a
        rw [hgx] at hz
        cases hz
        rw [hU, drop_of_getElem? hgx, strFirst_cons]
        constructor
        · rintro (h' | h')
          · exact .inr ⟨hn, h'⟩
          · exact .inl h'
        · rintro (h' | ⟨_, h'⟩)
          · exact .inr h'
          · exact .inl h'
      · intro z hz _ _ a ha
        cases hz
        rw [look_insert, if_pos rfl, k4]
        exact .inr ((hU a).2 ha)
  · have : ¬ (g.isNonTerminal x = true) := fun e => hx ((isNT_iff G x).1 e)
    rw [if_neg this]
    refine ⟨m, [], false, rfl, I, .refl _ _, ?_, ?_⟩
    · rintro k rfl
      refine ⟨by simp, ?_⟩
      intro z hz hn
      rw [hgx] at hz
      cases hz
      exact absurd hn (terminal_not_nullable hx)
    · intro z hz hnt
      cases hz
      exact absurd hnt hx

theorem followLoop_spec (h : HashOrder T) (G : GrammarOf eps init ps g) (nts : List T)
    (hnts : ∀ x, x ∈ nts ↔ IsNonTerminal ps x) {fm : SymbolsMap T} (FS : FirstSpec eps ps fm)
    {p : Production T} (hp : p ∈ ps) (hr : rhs eps p = p.output) (i : Nat)
    (hi : i + 1 < p.output.length) (is : List Nat) (J : IdxInv eps ps p.output i is)
    (m : SymbolsMap T) (I : FollowInv eps ps m) :
    ∃ m' up, followLoop h g fm p i is m = .ok (m', up) ∧ FollowInv eps ps m' ∧
      MapGrows nts m m' up ∧
      (∀ j, j ≤ i → ∀ x, p.output[j]? = some x → IsNonTerminal ps x →
        p.output[j + 1]? ≠ some x →
        ∀ a, StrFirst eps ps (p.output.drop (j + 1)) a → a ∈ look m' x) := by
  induction i generalizing is m with
  | zero =>
    obtain ⟨m1, is1, u1, h1, h2, h3, _, h5⟩ := followSymbol_spec h G nts hnts FS hp hr 0 hi is J m I
    refine ⟨m1, u1, ?_, h2, h3, ?_⟩
    · simp [followLoop, h1]
    · intro j hj
      obtain rfl : j = 0 := by omega
      exact h5
  | succ i ih =>
    obtain ⟨m1, is1, u1, h1, h2, h3, h4, h5⟩ :=
      followSymbol_spec h G nts hnts FS hp hr (i + 1) hi is J m I
    obtain ⟨m2, u2, k1, k2, k3, k4⟩ := ih (by omega) is1 (h4 i rfl) m1 h2
    refine ⟨m2, u1 || u2, ?_, k2, h3.trans k3, ?_⟩
    · simp [followLoop, h1, k1]
    · intro j hj
      by_cases hji : j = i + 1
      · subst hji; exact fun x hx hnt hne a ha => k3.sub _ _ (h5 x hx hnt hne a ha)
      · exact k4 j (by omega)

/-- What the sets `F` demand for this production is in the sets `F'`. -/
structure StepFollow (eps : T) (ps : List (Production T)) (F F' : T → List T) (p : Production T) :
    Prop where
  first : ∀ u x t, rhs eps p = u ++ x :: t → IsNonTerminal ps x → t.head? ≠ some x →
    ∀ a, StrFirst eps ps t a → a ∈ F' x
  last : ∀ u x t, rhs eps p = u ++ x :: t → IsNonTerminal ps x → StrNullable eps ps t →
    ∀ a ∈ F p.input, a ∈ F' x

theorem StepFollow.mono {F F' G G' : T → List T} {p : Production T} (h : StepFollow eps ps F' G p)
    (hF : ∀ x, ∀ a ∈ F x, a ∈ F' x) (hG : ∀ x, ∀ a ∈ G x, a ∈ G' x) : StepFollow eps ps F G' p :=
  ⟨fun u x t hd hx ht a ha => hG x a (h.first u x t hd hx ht a ha),
   fun u x t hd hx ht a ha => hG x a (h.last u x t hd hx ht a (hF _ a ha))⟩

/-- The FOLLOW map adds nothing for this production. -/
abbrev FollowClosed (eps : T) (ps : List (Production T)) (F : T → List T) (p : Production T) : Prop :=
  StepFollow eps ps F F p

theorem followProduction_spec (h : HashOrder T) (G : GrammarOf eps init ps g) (nts : List T)
    (hnts : ∀ x, x ∈ nts ↔ IsNonTerminal ps x) {fm : SymbolsMap T} (FS : FirstSpec eps ps fm)
    {p : Production T} (hp : p ∈ ps) (m : SymbolsMap T) (I : FollowInv eps ps m) :
    ∃ m' up, followProduction h g fm p m = .ok (m', up) ∧ FollowInv eps ps m' ∧
      MapGrows nts m m' up ∧ StepFollow eps ps (look m) (look m') p := by
  by_cases he : p.output = [eps]
  · have hrhs : rhs eps p = [] := by simp [rhs, he]
    have hnt' : ¬ (g.isNonTerminal eps = true) := fun e => eps_not_nt G ((isNT_iff G eps).1 e)
    have hk : IsNonTerminal ps eps ∨ IsTerminal ps eps := symbol_kind hp (by simp [he])
    refine ⟨m, false, ?_, I, .refl _ _, ?_⟩
    · simp [followProduction, lastEpsilonChain, lastIndex, he, lastEpsilonChainLoop,
        followFromInput, hnt', FS.inv.get_some hk]
    · constructor
      · intro u x t e; rw [hrhs] at e; cases u <;> simp at e
      · intro u x t e; rw [hrhs] at e; cases u <;> simp at e
  · have hr : rhs eps p = p.output := by simp [rhs, he]
    have hne : p.output ≠ [] := (G.wf p hp).2.1
    have hlen : 0 < p.output.length := List.length_pos_iff.2 hne
    have hli : lastIndex p = .ok (p.output.length - 1) := by
      unfold lastIndex; rw [if_neg (by omega)]
    obtain ⟨m1, u1, h1, h2, h3, h4⟩ := lastEpsilonChainLoop_spec h G nts hnts FS hp hr
      (p.output.length - 1) (by omega)
      (by rw [List.drop_eq_nil_of_le (by omega)]; exact strNullable_nil) m I
    have hlast : ∀ u x t, rhs eps p = u ++ x :: t → IsNonTerminal ps x →
        StrNullable eps ps t → ∀ a ∈ look m p.input, a ∈ look m1 x := by
      intro u x t hd hx ht
      rw [hr] at hd
      refine h4 u.length x ?_ ?_ hx ?_
      · rw [hd]; simp
      · rw [hd]; simp
      · rw [hd]; simpa using ht
    by_cases hl : p.output.length - 1 > 0
    · have J : IdxInv eps ps p.output (p.output.length - 1 - 1) [] := by
        refine ⟨by simp, ?_⟩
        intro y hy _ a
        rw [drop_of_getElem? hy, List.drop_eq_nil_of_le (by omega), ← canStart_iff_strFirst]
        constructor
        · rintro (⟨j, hj, _⟩ | h')
          · simp at hj
          · exact h'
        · exact .inr
      obtain ⟨m2, u2, k1, k2, k3, k4⟩ := followLoop_spec h G nts hnts FS hp hr
        (p.output.length - 1 - 1) (by omega) [] J m1 h2
      refine ⟨m2, u1 || u2, ?_, k2, h3.trans k3, ?_⟩
      · simp [followProduction, lastEpsilonChain, hli, h1, hl, k1]
      · refine ⟨?_, fun u x t hd hx ht a ha => k3.sub _ _ (hlast u x t hd hx ht a ha)⟩
        intro u x t hd hx ht a ha
        rw [hr] at hd
        have htl : t ≠ [] := by rintro rfl; exact not_strFirst_nil ha
        have htl' : 0 < t.length := List.length_pos_iff.2 htl
        exact k4 u.length (by rw [hd]; simp; omega) x (by rw [hd]; simp) hx
          (by rw [hd, List.getElem?_append_right (by omega)]; simpa [List.head?_eq_getElem?] using ht) a (by rw [hd]; simpa using ha)
    · refine ⟨m1, u1, ?_, h2, h3, ?_⟩
      · simp [followProduction, lastEpsilonChain, hli, h1, hl]
      · refine ⟨?_, hlast⟩
        intro u x t hd hx ht a ha
        rw [hr] at hd
        have htl : t ≠ [] := by rintro rfl; exact not_strFirst_nil ha
        have htl' : 0 < t.length := List.length_pos_iff.2 htl
        exfalso
        rw [hd] at hl
        simp at hl
        exact htl hl.2

theorem followProductions_spec (h : HashOrder T) (G : GrammarOf eps init ps g) (nts : List T)
    (hnts : ∀ x, x ∈ nts ↔ IsNonTerminal ps x) {fm : SymbolsMap T} (FS : FirstSpec eps ps fm)
    (qs : List (Production T)) (hq : ∀ p ∈ qs, p ∈ ps) (m : SymbolsMap T) (I : FollowInv eps ps m) :
    ∃ m' up, followProductions h g fm qs m = .ok (m', up) ∧ FollowInv eps ps m' ∧
      MapGrows nts m m' up ∧ ∀ p ∈ qs, StepFollow eps ps (look m) (look m') p := by
  induction qs generalizing m with
  | nil => exact ⟨m, false, rfl, I, .refl _ _, by simp⟩
  | cons p qs ih =>
    obtain ⟨m1, u1, h1, h2, h3, h4⟩ := followProduction_spec h G nts hnts FS (hq p (by simp)) m I
    obtain ⟨m2, u2, k1, k2, k3, k4⟩ := ih (fun q hq' => hq q (by simp [hq'])) m1 h2
    refine ⟨m2, u1 || u2, ?_, k2, h3.trans k3, ?_⟩
    · simp [followProductions, h1, k1]
    · intro q hq'
      rcases List.mem_cons.1 hq' with rfl | hq'
      · exact h4.mono (fun _ _ h => h) k3.sub
      · exact (k4 q hq').mono h3.sub (fun _ _ h => h)

theorem followRoundLoop_spec (h : HashOrder T) (G : GrammarOf eps init ps g) (nts xs : List T)
    (hnts : ∀ x, x ∈ nts ↔ IsNonTerminal ps x) (hxs : ∀ x ∈ xs, IsNonTerminal ps x)
    {fm : SymbolsMap T} (FS : FirstSpec eps ps fm) (m : SymbolsMap T) (I : FollowInv eps ps m) :
    ∃ m' up, followRoundLoop h g fm xs m = .ok (m', up) ∧ FollowInv eps ps m' ∧
      MapGrows nts m m' up ∧
      ∀ x ∈ xs, ∀ p ∈ ps, p.input = x → StepFollow eps ps (look m) (look m') p := by
  induction xs generalizing m with
  | nil => exact ⟨m, false, rfl, I, .refl _ _, by simp⟩
  | cons x xs ih =>
    have hx := hxs x (by simp)
    have hpr : g.getProductions x = some (ps.filter (·.input = x)) := by
      rw [G.prods, if_pos (show ∃ p ∈ ps, p.input = x from hx)]
    obtain ⟨m1, u1, h1, h2, h3, h4⟩ := followProductions_spec h G nts hnts FS
      (ps.filter (·.input = x)) (fun p hp => (List.mem_filter.1 hp).1) m I
    obtain ⟨m2, u2, k1, k2, k3, k4⟩ := ih (fun y hy => hxs y (by simp [hy])) m1 h2
    refine ⟨m2, u1 || u2, ?_, k2, h3.trans k3, ?_⟩
    · simp [followRoundLoop, hpr, h1, k1]
    · intro y hy p hp hpy
      rcases List.mem_cons.1 hy with rfl | hy
      · exact (h4 p (by simp [hp, hpy])).mono (fun _ _ h => h) k3.sub
      · exact (k4 y hy p hp hpy).mono h3.sub (fun _ _ h => h)

/-- The FOLLOW map is what the closure rules of the code make of it. -/
structure FollowSpec (eps : T) (ps : List (Production T)) (m : SymbolsMap T) : Prop where
  dom : ∀ x, (m.get x).isSome ↔ IsNonTerminal ps x
  nodup : ∀ x, (look m x).Nodup
  mem : ∀ x a, a ∈ look m x ↔ FollowRule eps ps x a

/-- As many rounds as there are pairs of a non-terminal and an element of its set, plus one, are
enough. -/
theorem innerGetFollowSymbols_bound (h : HashOrder T) (G : GrammarOf eps init ps g)
    {fm : SymbolsMap T} (FS : FirstSpec eps ps fm) :
    ∃ m, FollowSpec eps ps m ∧
      ∀ n, (g.getNonTerminalSymbols h).length * g.terminalSymbolsSet.length + 1 ≤ n →
        innerGetFollowSymbols h n g fm = .ok m := by
  have hnts : ∀ x, x ∈ g.getNonTerminalSymbols h ↔ IsNonTerminal ps x := by
    intro x; rw [Grammar.getNonTerminalSymbols, h.mem_ord, G.mem_nts]
  have hget0 : ∀ x, (HMap.fromIter ((g.getNonTerminalSymbols h).map (fun x => (x, ([] : List T))))).get x
      = if x ∈ g.getNonTerminalSymbols h then some [] else none :=
    fun x => HMap.get_fromIter_map _ _ _
  have I0 : FollowInv eps ps
      (HMap.fromIter ((g.getNonTerminalSymbols h).map (fun x => (x, ([] : List T))))) := by
    have hl : ∀ x, look (HMap.fromIter ((g.getNonTerminalSymbols h).map
        (fun x => (x, ([] : List T))))) x = [] := by
      intro x; unfold look; rw [hget0]; split <;> simp
    constructor
    · intro x
      rw [hget0]
      by_cases h' : IsNonTerminal ps x <;> simp [hnts, h']
    · intro x; rw [hl]; simp
    · intro x a ha; rw [hl] at ha; simp at ha
  obtain ⟨r, hr, hq, hn⟩ := converge_spec (followRoundLoop h g fm (g.getNonTerminalSymbols h))
    (FollowInv eps ps) (fun m => ∀ p ∈ ps, FollowClosed eps ps (look m) p)
    (size (g.getNonTerminalSymbols h))
    ((g.getNonTerminalSymbols h).length * g.terminalSymbolsSet.length)
    (by
      intro m I
      apply size_bound
      intro x hx
      refine (List.subperm_of_subset (I.nodup x) ?_).length_le
      intro a ha
      exact (G.mem_ts a).2 (I.sound x a ha).canFollow.1)
    (by
      intro m I
      obtain ⟨m', up, h1, h2, h3, h4⟩ := followRoundLoop_spec h G (g.getNonTerminalSymbols h)
        (g.getNonTerminalSymbols h) hnts (fun x hx => (hnts x).1 hx) FS m I
      refine ⟨m', up, h1, h2, h3.more, ?_⟩
      intro e p hp
      have h5 := h4 p.input ((hnts _).2 ⟨p, hp, rfl⟩) p hp rfl
      rw [h3.look_eq e] at h5 ⊢
      exact h5)
    _ I0
  refine ⟨r, ⟨hr.dom, hr.nodup, fun x a => ⟨hr.sound x a, ?_⟩⟩,
    fun n hn' => hn n (Nat.lt_of_le_of_lt (Nat.sub_le _ _) (Nat.lt_of_succ_le hn'))⟩
  intro H
  induction H with
  | first hp hd hx ht ha => exact (hq _ hp).first _ _ _ hd hx ht _ ha
  | last hp hd hx ht _ ih => exact (hq _ hp).last _ _ _ hd hx ht _ ih

/-- Everything the rest of the development needs to know about the computed sets. -/
structure Spec (eps : T) (ps : List (Production T)) (ff : FirstFollow T) : Prop where
  first : FirstSpec eps ps ff.firstSymbols
  follow : FollowSpec eps ps ff.followSymbols

/-- The number of rounds of each of the two loops that is always enough. -/
theorem from_bound (h : HashOrder T) (G : GrammarOf eps init ps g) :
    ∃ ff, Spec eps ps ff ∧
      ∀ n, (g.getNonTerminalSymbols h).length * (g.terminalSymbolsSet.length + 1) + 1 ≤ n →
        FirstFollow.from h n g = .ok ff := by
  obtain ⟨fm, FS, h1⟩ := innerGetFirstSymbols_bound h G
  obtain ⟨fo, FO, h2⟩ := innerGetFollowSymbols_bound h G FS
  refine ⟨⟨fm, fo⟩, ⟨FS, FO⟩, ?_⟩
  intro n hn
  have e1 := h1 n (by simpa using hn)
  have e2 := h2 n (by
    rw [Nat.mul_add] at hn
    omega)
  simp [FirstFollow.from, e1, e2]

theorem from_spec (h : HashOrder T) (G : GrammarOf eps init ps g) :
    ∃ ff N, Spec eps ps ff ∧ ∀ n, N ≤ n → FirstFollow.from h n g = .ok ff := by
  obtain ⟨ff, h1, h2⟩ := from_bound h G
  exact ⟨ff, _, h1, h2⟩

end FirstFollow

end Verif
