import Verif.Proof.Converge
import Mathlib.Data.List.Perm.Subperm
import Verif.Proof.Grammar
import Verif.Proof.Derivation

/-! # The computed FIRST sets -/

set_option linter.unusedSectionVars false

namespace Verif

open Spec

variable {T : Type} [DecidableEq T]

namespace FirstFollow

/-- `a` belongs into FIRST of `x`. -/
def FirstOk (eps : T) (ps : List (Production T)) (x a : T) : Prop :=
  (a = eps ∧ Nullable eps ps x) ∨ CanStart eps ps x a

/-- The invariant of the FIRST map. -/
structure FirstInv (eps : T) (ps : List (Production T)) (m : SymbolsMap T) : Prop where
  dom : ∀ x, (m.get x).isSome ↔ IsNonTerminal ps x ∨ IsTerminal ps x
  term : ∀ x, IsTerminal ps x → m.get x = some [x]
  nodup : ∀ x, (look m x).Nodup
  sound : ∀ x, IsNonTerminal ps x → ∀ a ∈ look m x, FirstOk eps ps x a

/-- The remaining symbols of a right-hand side add nothing to `cur`. -/
def Closed (eps : T) (F : T → List T) (cur : List T) : List T → Prop
  | [] => eps ∈ cur
  | x :: xs => (∀ a ∈ F x, a ≠ eps → a ∈ cur) ∧ (eps ∈ F x → Closed eps F cur xs)

theorem Closed.mono {eps : T} {F F' : T → List T} {cur cur' : List T}
    (hF : ∀ x, ∀ a ∈ F x, a ∈ F' x) (hc : ∀ a ∈ cur, a ∈ cur') {xs : List T}
    (h : Closed eps F' cur xs) : Closed eps F cur' xs := by
  induction xs with
  | nil => exact hc _ h
  | cons x xs ih => exact ⟨fun a ha hne => hc a (h.1 a (hF x a ha) hne), fun he => ih (h.2 (hF x _ he))⟩

/-- The FIRST map as the loop body sees it, the held cell having contents `cur`. -/
def liveMap (m : SymbolsMap T) (A : T) (cur : List T) (y : T) : List T :=
  if y = A then cur else look m y

variable {eps init : T} {ps : List (Production T)} {g : Grammar T}

theorem liveMap_mono {m : SymbolsMap T} {A : T} {cur cur' : List T} (h : ∀ a ∈ cur, a ∈ cur') :
    ∀ x, ∀ a ∈ liveMap m A cur x, a ∈ liveMap m A cur' x := by
  intro x a ha
  unfold liveMap at ha ⊢
  split
  · rename_i e; rw [if_pos e] at ha; exact h a ha
  · rename_i e; rw [if_neg e] at ha; exact ha

theorem isNT_iff (G : GrammarOf eps init ps g) (x : T) : g.isNonTerminal x = true ↔ IsNonTerminal ps x := by
  simp [Grammar.isNonTerminal, G.mem_nts]

theorem FirstInv.get_some {m : SymbolsMap T} (I : FirstInv eps ps m) {x : T}
    (h : IsNonTerminal ps x ∨ IsTerminal ps x) : m.get x = some (look m x) := by
  have := (I.dom x).2 h
  cases hm : m.get x with
  | none => simp [hm] at this
  | some s => simp [look, hm]

theorem symbol_kind {p : Production T} (hp : p ∈ ps) {x : T} (hx : x ∈ p.output) :
    IsNonTerminal ps x ∨ IsTerminal ps x := by
  by_cases h : IsNonTerminal ps x
  · exact .inl h
  · exact .inr ⟨⟨p, hp, hx⟩, h⟩

theorem processSymbols_spec (h : HashOrder T) (G : GrammarOf eps init ps g) {m : SymbolsMap T}
    (I : FirstInv eps ps m) {p : Production T} (hp : p ∈ ps) (u xs : List T)
    (hr : rhs eps p = u ++ xs) (hu : StrNullable eps ps u) (cur : List T) (hnd : cur.Nodup)
    (hs : ∀ a ∈ cur, FirstOk eps ps p.input a) :
    ∃ cur' up, processSymbols h g m p.input p.input cur xs = .ok (cur', up) ∧ Grows cur cur' up ∧
      cur'.Nodup ∧ (∀ a ∈ cur', FirstOk eps ps p.input a) ∧
      Closed eps (liveMap m p.input cur) cur' xs := by
  have hout : ∀ x ∈ xs, x ∈ p.output := by
    intro x hx
    have : x ∈ rhs eps p := by rw [hr]; simp [hx]
    unfold rhs at this
    split at this
    · simp at this
    · exact this
  induction xs generalizing u cur with
  | nil =>
    refine ⟨(hsInsert cur g.epsilonSymbol).1, (hsInsert cur g.epsilonSymbol).2, rfl, grows_hsInsert _ _, nodup_hsInsert _ hnd, ?_, ?_⟩
    · intro a ha
      rw [mem_hsInsert] at ha
      rcases ha with ha | rfl
      · exact hs a ha
      · rw [List.append_nil] at hr
        exact .inl ⟨G.eps_eq, Nullable.of_production hp (hr ▸ hu)⟩
    · have h2 : g.epsilonSymbol ∈ (hsInsert cur g.epsilonSymbol).1 := by simp [mem_hsInsert]
      have h3 := G.eps_eq ▸ h2
      simpa [Closed, G.eps_eq] using h3
  | cons x xs ih =>
    have hxout := hout x (by simp)
    have hxs : ∀ y ∈ xs, y ∈ p.output := fun y hy => hout y (by simp [hy])
    have hr' : rhs eps p = (u ++ [x]) ++ xs := by simp [hr]
    have hxeps : x ≠ eps := by
      intro e
      have h1 : eps ∈ rhs eps p := by rw [hr, e]; simp
      unfold rhs at h1
      split at h1
      · simp at h1
      · rename_i hne
        have := (G.wf p hp).2.2 h1
        obtain ⟨y, hy⟩ := List.length_eq_one_iff.1 this
        rw [hy] at h1 hne
        simp at h1
        simp [h1] at hne
    unfold processSymbols processSymbol
    by_cases hxA : x = p.input
    · rw [if_pos hxA]
      by_cases hc : g.epsilonSymbol ∈ cur
      · have hn : Nullable eps ps x := by
          rcases hs _ hc with ⟨_, h'⟩ | h'
          · rw [hxA]; exact h'
          · exact absurd G.eps_eq h'.2.1
        have hu' : StrNullable eps ps (u ++ [x]) := by
          rw [strNullable_append]; exact ⟨hu, by simp [StrNullable, hn]⟩
        obtain ⟨cur', up, he, hg, hn', hs', hc'⟩ := ih (u ++ [x]) hr' hu' cur hnd hs hxs
        refine ⟨cur', up, ?_, hg, hn', hs', ?_⟩
        · simp [hc, he]
        · refine ⟨fun a ha _ => ?_, fun _ => hc'⟩
          rw [liveMap, if_pos hxA] at ha
          exact hg.sub a ha
      · refine ⟨cur, false, by simp [hc], .refl _, hnd, hs, ?_⟩
        refine ⟨fun a ha _ => ?_, fun ha => ?_⟩
        · rw [liveMap, if_pos hxA] at ha; exact ha
        · rw [liveMap, if_pos hxA] at ha; rw [G.eps_eq] at hc; exact absurd ha hc
    · rw [if_neg hxA]
      by_cases hnt : IsNonTerminal ps x
      · rw [if_pos ((isNT_iff G x).2 hnt)]
        have hget := I.get_some (.inl hnt)
        simp only [processNonTerminalSymbol, borrowWhile, hget, if_neg hxA, Out.bind_ok]
        by_cases hc : g.epsilonSymbol ∈ look m x
        · have hn : Nullable eps ps x := by
            rcases I.sound x hnt _ hc with ⟨_, h'⟩ | h'
            · exact h'
            · exact absurd G.eps_eq h'.2.1
          have hu' : StrNullable eps ps (u ++ [x]) := by
            rw [strNullable_append]; exact ⟨hu, by simp [StrNullable, hn]⟩
          rw [if_pos hc]
          have hg1 := grows_insertMany cur
            ((h.ord (.first x) (look m x)).filter (fun y => g.epsilonSymbol ≠ y))
          have hm1 := mem_insertMany cur
            ((h.ord (.first x) (look m x)).filter (fun y => g.epsilonSymbol ≠ y))
          have hn1 := nodup_insertMany
            ((h.ord (.first x) (look m x)).filter (fun y => g.epsilonSymbol ≠ y)) hnd
          revert hg1 hm1 hn1
          generalize insertMany cur
            ((h.ord (.first x) (look m x)).filter (fun y => g.epsilonSymbol ≠ y)) = r1
          obtain ⟨c1, u1⟩ := r1
          intro hg1 hm1 hn1
          simp only [List.mem_filter, h.mem_ord, decide_eq_true_eq, ne_eq] at hm1 hg1 hn1
          obtain ⟨cur', up, he, hg, hn', hs', hc'⟩ := ih (u ++ [x]) hr' hu' c1 hn1 (by
            intro a ha
            rw [hm1] at ha
            rcases ha with ha | ⟨ha, hne⟩
            · exact hs a ha
            · rcases I.sound x hnt a ha with ⟨e, _⟩ | h'
              · exact absurd (G.eps_eq.trans e.symm) hne
              · exact .inr (CanStart.of_production hp ⟨u, x, xs, hr, hu, h'⟩)) hxs
          refine ⟨cur', u1 || up, ?_, hg1.trans hg, hn', hs', ?_⟩
          · simp [he]
          · refine ⟨fun a ha hne => ?_, fun _ => hc'.mono (liveMap_mono hg1.sub) (fun _ h => h)⟩
            rw [liveMap, if_neg hxA] at ha
            refine hg.sub a ((hm1 a).2 (.inr ⟨ha, ?_⟩))
            rw [G.eps_eq]; exact fun e => hne e.symm
        · rw [if_neg hc]
          have hg1 := grows_insertMany cur (h.ord (.first x) (look m x))
          have hm1 := mem_insertMany cur (h.ord (.first x) (look m x))
          have hn1 := nodup_insertMany (h.ord (.first x) (look m x)) hnd
          refine ⟨_, _, rfl, hg1, hn1, ?_, ?_⟩
          · intro a ha
            rw [hm1, h.mem_ord] at ha
            rcases ha with ha | ha
            · exact hs a ha
            · rcases I.sound x hnt a ha with ⟨e, _⟩ | h'
              · rw [e, ← G.eps_eq] at ha; exact absurd ha hc
              · exact .inr (CanStart.of_production hp ⟨u, x, xs, hr, hu, h'⟩)
          · refine ⟨fun a ha _ => ?_, fun ha => ?_⟩
            · rw [liveMap, if_neg hxA] at ha
              rw [hm1, h.mem_ord]
              exact .inr ha
            · rw [liveMap, if_neg hxA, ← G.eps_eq] at ha; exact absurd ha hc
      · have : ¬ (g.isNonTerminal x = true) := fun e => hnt ((isNT_iff G x).1 e)
        rw [if_neg this]
        have ht : IsTerminal ps x := ⟨⟨p, hp, hxout⟩, hnt⟩
        refine ⟨(hsInsert cur x).1, (hsInsert cur x).2, rfl, grows_hsInsert _ _, nodup_hsInsert _ hnd, ?_, ?_⟩
        · intro a ha
          rw [mem_hsInsert] at ha
          rcases ha with ha | rfl
          · exact hs a ha
          · exact .inr (CanStart.of_production hp ⟨u, a, xs, hr, hu, .self ht hxeps⟩)
        · have hl : look m x = [x] := look_of_get (I.term x ht)
          refine ⟨fun a ha _ => ?_, fun ha => ?_⟩
          · rw [liveMap, if_neg hxA, hl, List.mem_singleton] at ha
            rw [mem_hsInsert]; exact .inr ha
          · rw [liveMap, if_neg hxA, hl, List.mem_singleton] at ha
            exact absurd ha.symm hxeps

/-- The closure property of a whole production: also the production with output `eps`. -/
def ClosedProd (eps : T) (F : T → List T) (p : Production T) : Prop :=
  Closed eps F (F p.input) (rhs eps p)

/-- What the sets `F` demand for a production is in the sets `F'`. -/
def StepProd (eps : T) (F F' : T → List T) (p : Production T) : Prop :=
  Closed eps F (F' p.input) (rhs eps p)

theorem processProduction_spec (h : HashOrder T) (G : GrammarOf eps init ps g) {m : SymbolsMap T}
    (I : FirstInv eps ps m) {p : Production T} (hp : p ∈ ps) (cur : List T) (hnd : cur.Nodup)
    (hs : ∀ a ∈ cur, FirstOk eps ps p.input a) :
    ∃ cur' up, processProduction h g m p.input cur p = .ok (cur', up) ∧ Grows cur cur' up ∧
      cur'.Nodup ∧ (∀ a ∈ cur', FirstOk eps ps p.input a) ∧
      Closed eps (liveMap m p.input cur) cur' (rhs eps p) := by
  unfold processProduction
  by_cases he : p.output = [eps]
  · have hrhs : rhs eps p = [] := by simp [rhs, he]
    have hne : eps ≠ p.input := fun e => (G.wf p hp).1 e.symm
    have hnt : ¬ IsNonTerminal ps eps := by
      rintro ⟨q, hq, e⟩; exact (G.wf q hq).1 e
    have hnt' : ¬ (g.isNonTerminal eps = true) := fun e => hnt ((isNT_iff G eps).1 e)
    rw [he]
    simp only [processSymbols, processSymbol, if_neg hne, if_neg hnt', Out.bind_ok]
    refine ⟨_, _, rfl, grows_hsInsert _ _, nodup_hsInsert _ hnd, ?_, ?_⟩
    · intro a ha
      rw [mem_hsInsert] at ha
      rcases ha with ha | rfl
      · exact hs a ha
      · exact .inl ⟨rfl, Nullable.of_production hp (by rw [hrhs]; exact strNullable_nil)⟩
    · rw [hrhs]
      show eps ∈ (hsInsert cur eps).1
      rw [mem_hsInsert]; exact .inr rfl
  · have hrhs : rhs eps p = p.output := by simp [rhs, he]
    obtain ⟨cur', up, h1, h2, h3, h4, h5⟩ :=
      processSymbols_spec h G I hp [] p.output (by simp [hrhs]) strNullable_nil cur hnd hs
    refine ⟨cur', up, h1, h2, h3, h4, ?_⟩
    rw [hrhs]
    exact h5

theorem processProductions_spec (h : HashOrder T) (G : GrammarOf eps init ps g) {m : SymbolsMap T}
    (I : FirstInv eps ps m) (A : T) (qs : List (Production T)) (hq : ∀ p ∈ qs, p ∈ ps ∧ p.input = A)
    (cur : List T) (hnd : cur.Nodup) (hs : ∀ a ∈ cur, FirstOk eps ps A a) :
    ∃ cur' up, processProductions h g m A cur qs = .ok (cur', up) ∧ Grows cur cur' up ∧
      cur'.Nodup ∧ (∀ a ∈ cur', FirstOk eps ps A a) ∧
      ∀ p ∈ qs, Closed eps (liveMap m A cur) cur' (rhs eps p) := by
  induction qs generalizing cur with
  | nil => exact ⟨cur, false, rfl, .refl _, hnd, hs, by simp⟩
  | cons p qs ih =>
    obtain ⟨hp, rfl⟩ := hq p (by simp)
    obtain ⟨c1, u1, h1, h2, h3, h4, h5⟩ := processProduction_spec h G I hp cur hnd hs
    obtain ⟨c2, u2, k1, k2, k3, k4, k5⟩ := ih (fun q hq' => hq q (by simp [hq'])) c1 h3 h4
    refine ⟨c2, u1 || u2, ?_, h2.trans k2, k3, k4, ?_⟩
    · simp [processProductions, h1, k1]
    · intro q hq'
      rcases List.mem_cons.1 hq' with rfl | hq'
      · exact h5.mono (fun _ _ h => h) k2.sub
      · exact (k5 q hq').mono (liveMap_mono h2.sub) (fun _ h => h)

theorem FirstInv.insert {m : SymbolsMap T} (I : FirstInv eps ps m) {x : T} (hx : IsNonTerminal ps x)
    {s : List T} (hnd : s.Nodup) (hs : ∀ a ∈ s, FirstOk eps ps x a) :
    FirstInv eps ps (m.insert x s) where
  dom y := by
    rw [HMap.get_insert]
    split
    · rename_i e; subst e; simp [hx]
    · exact I.dom y
  term y hy := by
    rw [HMap.get_insert, if_neg]
    · exact I.term y hy
    · intro e; subst e; exact hy.2 hx
  nodup y := by
    rw [look_insert]
    split
    · exact hnd
    · exact I.nodup y
  sound y hy a ha := by
    rw [look_insert] at ha
    split at ha
    · rename_i e; subst e; exact hs a ha
    · exact I.sound y hy a ha

theorem firstRoundLoop_spec (h : HashOrder T) (G : GrammarOf eps init ps g) (nts xs : List T)
    (hnts : ∀ x, x ∈ nts ↔ IsNonTerminal ps x) (hxs : ∀ x ∈ xs, IsNonTerminal ps x)
    (m : SymbolsMap T) (I : FirstInv eps ps m) :
    ∃ m' up, firstRoundLoop h g xs m = .ok (m', up) ∧ FirstInv eps ps m' ∧ MapGrows nts m m' up ∧
      ∀ x ∈ xs, ∀ p ∈ ps, p.input = x → StepProd eps (look m) (look m') p := by
  induction xs generalizing m with
  | nil => exact ⟨m, false, rfl, I, .refl _ _, by simp⟩
  | cons x xs ih =>
    have hx := hxs x (by simp)
    have hget := I.get_some (.inl hx)
    have hpr : g.getProductions x = some (ps.filter (·.input = x)) := by
      rw [G.prods, if_pos (show ∃ p ∈ ps, p.input = x from hx)]
    obtain ⟨c1, u1, h1, h2, h3, h4, h5⟩ := processProductions_spec h G I x (ps.filter (·.input = x))
      (by intro p hp; simpa using hp) (look m x) (I.nodup x) (I.sound x hx)
    have I1 := I.insert hx h3 h4
    have g1 : MapGrows nts m (m.insert x c1) u1 := MapGrows.insert ((hnts x).2 hx) hget h2
    obtain ⟨m2, u2, k1, k2, k3, k4⟩ := ih (fun y hy => hxs y (by simp [hy])) _ I1
    refine ⟨m2, u1 || u2, ?_, k2, g1.trans k3, ?_⟩
    · simp [firstRoundLoop, hpr, hget, h1, k1]
    · have hl2 : liveMap m x (look m x) = look m := by
        funext y; unfold liveMap; split
        · rename_i e; rw [e]
        · rfl
      intro y hy p hp hpy
      rcases List.mem_cons.1 hy with rfl | hy
      · have := h5 p (by simp [hp, hpy])
        rw [hl2] at this
        refine this.mono (fun _ _ h => h) (fun a ha => k3.sub _ a ?_)
        rw [look_insert, if_pos hpy.symm]
        exact ha
      · exact (k4 y hy p hp hpy).mono g1.sub (fun _ h => h)

theorem firstInitialMap_get (nts ts : List T) (x : T) :
    (firstInitialMap nts ts).get x =
      if x ∈ ts then some [x] else if x ∈ nts then some [] else none := by
  unfold firstInitialMap HMap.fromIter
  rw [List.foldl_append, HMap.get_foldl_insert ts (fun x => [x])]
  have := HMap.get_foldl_insert (V := List T) nts (fun _ => []) [] x
  rw [this]
  rfl

/-- The FIRST map is what it should be. -/
structure FirstSpec (eps : T) (ps : List (Production T)) (m : SymbolsMap T) : Prop where
  inv : FirstInv eps ps m
  mem_nt : ∀ x, IsNonTerminal ps x → ∀ a, a ∈ look m x ↔ FirstOk eps ps x a

theorem firstSpec_of_closed {m : SymbolsMap T} (G : GrammarOf eps init ps g)
    (I : FirstInv eps ps m) (hc : ∀ p ∈ ps, ClosedProd eps (look m) p) : FirstSpec eps ps m := by
  have aux : ∀ (cur : List T) (l : List T), Closed eps (look m) cur l →
      ((∀ x ∈ l, eps ∈ look m x) → eps ∈ cur) ∧
      (∀ w y v, l = w ++ y :: v → (∀ x ∈ w, eps ∈ look m x) → ∀ a ∈ look m y, a ≠ eps → a ∈ cur) := by
    intro cur l
    induction l with
    | nil =>
      intro h
      refine ⟨fun _ => h, ?_⟩
      intro w y v e
      cases w <;> simp at e
    | cons x l ih =>
      rintro ⟨h1, h2⟩
      refine ⟨fun H => (ih (h2 (H x (by simp)))).1 (fun y hy => H y (by simp [hy])), ?_⟩
      intro w y v e hw a ha hne
      cases w with
      | nil =>
        simp only [List.nil_append, List.cons.injEq] at e
        rw [e.1] at h1
        exact h1 a ha hne
      | cons z w =>
        simp only [List.cons_append, List.cons.injEq] at e
        obtain ⟨rfl, e⟩ := e
        exact (ih (h2 (hw x (by simp)))).2 w y v e (fun x' hx' => hw x' (by simp [hx'])) a ha hne
  have hN : ∀ p ∈ ps, (∀ x ∈ rhs eps p, eps ∈ look m x) → eps ∈ look m p.input :=
    fun p hp H => (aux _ _ (hc p hp)).1 H
  have hF : ∀ p ∈ ps, ∀ w y v, rhs eps p = w ++ y :: v → (∀ x ∈ w, eps ∈ look m x) →
      ∀ a, (a ∈ look m y ∧ a ≠ eps) → (a ∈ look m p.input ∧ a ≠ eps) :=
    fun p hp w y v e hw a ha => ⟨(aux _ _ (hc p hp)).2 w y v e hw a ha.1 ha.2, ha.2⟩
  have hT : ∀ a, IsTerminal ps a → a ≠ eps → (a ∈ look m a ∧ a ≠ eps) := by
    intro a ha hne
    rw [look_of_get (I.term a ha)]
    simp [hne]
  refine ⟨I, fun x hx a => ⟨I.sound x hx a, ?_⟩⟩
  rintro (⟨rfl, h⟩ | h)
  · exact nullable_of_closed (fun x => a ∈ look m x) hN h
  · exact (canStart_of_closed (fun x => eps ∈ look m x) (fun y a => a ∈ look m y ∧ a ≠ eps)
      hN hF hT h).1

/-- As many rounds as there are pairs of a non-terminal and an element of its set, plus one, are
enough. -/
theorem innerGetFirstSymbols_bound (h : HashOrder T) (G : GrammarOf eps init ps g) :
    ∃ m, FirstSpec eps ps m ∧
      ∀ n, (g.getNonTerminalSymbols h).length * (eps :: g.terminalSymbolsSet).length + 1 ≤ n →
        innerGetFirstSymbols h n g = .ok m := by
  have hnts : ∀ x, x ∈ g.getNonTerminalSymbols h ↔ IsNonTerminal ps x := by
    intro x; rw [Grammar.getNonTerminalSymbols, h.mem_ord, G.mem_nts]
  have hts : ∀ x, x ∈ g.getTerminalSymbols h ↔ IsTerminal ps x := by
    intro x; rw [Grammar.getTerminalSymbols, h.mem_ord, G.mem_ts]
  have I0 : FirstInv eps ps
      (firstInitialMap (g.getNonTerminalSymbols h) (g.getTerminalSymbols h)) := by
    constructor
    · intro x
      rw [firstInitialMap_get]
      by_cases h1 : IsTerminal ps x
      · simp [(hts x).2 h1, h1]
      · by_cases h2 : IsNonTerminal ps x
        · simp [hts, hnts, h1, h2]
        · simp [hts, hnts, h1, h2]
    · intro x hx
      rw [firstInitialMap_get, if_pos ((hts x).2 hx)]
    · intro x
      unfold look
      rw [firstInitialMap_get]
      split
      · simp
      · split <;> simp
    · intro x hx a ha
      unfold look at ha
      rw [firstInitialMap_get, if_neg (fun e => ((hts x).1 e).2 hx), if_pos ((hnts x).2 hx)] at ha
      simp at ha
  obtain ⟨r, hr, hq, hn⟩ := converge_spec (firstRoundLoop h g (g.getNonTerminalSymbols h))
    (FirstInv eps ps) (fun m => ∀ p ∈ ps, ClosedProd eps (look m) p)
    (size (g.getNonTerminalSymbols h))
    ((g.getNonTerminalSymbols h).length * (eps :: g.terminalSymbolsSet).length)
    (by
      intro m I
      apply size_bound
      intro x hx
      refine (List.subperm_of_subset (I.nodup x) ?_).length_le
      intro a ha
      rcases I.sound x ((hnts x).1 hx) a ha with ⟨rfl, _⟩ | h'
      · simp
      · simp [(G.mem_ts a).2 h'.1])
    (by
      intro m I
      obtain ⟨m', up, h1, h2, h3, h4⟩ := firstRoundLoop_spec h G (g.getNonTerminalSymbols h)
        (g.getNonTerminalSymbols h) hnts (fun x hx => (hnts x).1 hx) m I
      refine ⟨m', up, h1, h2, h3.more, ?_⟩
      intro e p hp
      have hl : look m' = look m := by funext y; unfold look; rw [h3.same e]
      have h5 := h4 p.input ((hnts _).2 ⟨p, hp, rfl⟩) p hp rfl
      unfold StepProd at h5
      rw [hl] at h5 ⊢
      exact h5)
    _ I0
  refine ⟨r, firstSpec_of_closed G hr hq, fun n hn' => hn n ?_⟩
  exact Nat.lt_of_le_of_lt (Nat.sub_le _ _) (Nat.lt_of_succ_le hn')

theorem innerGetFirstSymbols_spec (h : HashOrder T) (G : GrammarOf eps init ps g) :
    ∃ m N, FirstSpec eps ps m ∧ ∀ n, N ≤ n → innerGetFirstSymbols h n g = .ok m := by
  obtain ⟨m, h1, h2⟩ := innerGetFirstSymbols_bound h G
  exact ⟨m, _, h1, h2⟩

end FirstFollow

end Verif
