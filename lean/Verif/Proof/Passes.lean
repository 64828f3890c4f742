import Verif.Proof.Follow

/-! # How many passes the two loops of `FirstFollowSymbols::from` need -/

set_option linter.unusedSectionVars false

namespace Verif

open Spec

variable {T : Type} [DecidableEq T]

namespace FirstFollow

/-- A loop whose rounds lift the level of the state by one and that reports no update at level `K`. -/
theorem converge_levels {S : Type} (cb : S → Out (S × Bool)) (Inv : S → Prop) (Lv : Nat → S → Prop)
    (K : Nat)
    (hstep : ∀ s k, Inv s → Lv k s → k ≤ K → ∃ s' u, cb s = .ok (s', u) ∧ Inv s' ∧ Lv (k + 1) s' ∧
      (k = K → u = false)) (s : S) (hs : Inv s) (k : Nat) (hk : k ≤ K) (hl : Lv k s) :
    ∃ r, ∀ n, K - k < n → converge cb n s = .ok r := by
  generalize hd : K - k = d
  induction d generalizing s k with
  | zero =>
    obtain ⟨s', u, h1, _, _, h4⟩ := hstep s k hs hl hk
    have hu := h4 (by omega)
    subst hu
    refine ⟨s', fun n hn => ?_⟩
    obtain ⟨n, rfl⟩ : ∃ j, n = j + 1 := ⟨n - 1, by omega⟩
    simp [converge, h1]
  | succ d ih =>
    obtain ⟨s', u, h1, h2, h3, _⟩ := hstep s k hs hl hk
    obtain ⟨r, hr⟩ := ih s' h2 (k + 1) (by omega) h3 (by omega)
    cases u with
    | false =>
      refine ⟨s', fun n hn => ?_⟩
      obtain ⟨n, rfl⟩ : ∃ j, n = j + 1 := ⟨n - 1, by omega⟩
      simp [converge, h1]
    | true =>
      refine ⟨r, fun n hn => ?_⟩
      obtain ⟨n, rfl⟩ : ∃ j, n = j + 1 := ⟨n - 1, by omega⟩
      simp only [converge, h1, Out.bind_ok, if_true]
      exact hr n (by omega)

/-- The number of symbols of `nts` whose set has `a`. -/
def cnt (nts : List T) (m : SymbolsMap T) (a : T) : Nat := nts.countP (fun x => decide (a ∈ look m x))

theorem cnt_le (nts : List T) (m : SymbolsMap T) (a : T) : cnt nts m a ≤ nts.length :=
  List.countP_le_length

theorem cnt_all {nts : List T} {m : SymbolsMap T} {a : T} (h : nts.length ≤ cnt nts m a) :
    ∀ x ∈ nts, a ∈ look m x := by
  have := List.countP_eq_length.1 (Nat.le_antisymm (cnt_le nts m a) h)
  intro x hx
  simpa using this x hx

theorem cnt_step {nts : List T} {m m' : SymbolsMap T} {a : T}
    (h : ∀ x ∈ nts, a ∈ look m x → a ∈ look m' x) :
    cnt nts m a ≤ cnt nts m' a ∧
      ((∀ x ∈ nts, a ∈ look m' x → a ∈ look m x) ∨ cnt nts m a < cnt nts m' a) := by
  induction nts with
  | nil => simp [cnt]
  | cons y nts ih =>
    obtain ⟨h1, h2⟩ := ih (fun x hx => h x (by simp [hx]))
    have hy := h y (by simp)
    unfold cnt at *
    rw [List.countP_cons, List.countP_cons]
    by_cases e : a ∈ look m y
    · have e' := hy e
      simp only [e, e', decide_true, if_true]
      refine ⟨by omega, ?_⟩
      rcases h2 with h2 | h2
      · left
        intro x hx hx'
        rcases List.mem_cons.1 hx with rfl | hx
        · exact e
        · exact h2 x hx hx'
      · right; omega
    · by_cases e' : a ∈ look m' y
      · simp only [e, e', decide_true, decide_false, if_true, Bool.false_eq_true, if_false]
        exact ⟨by omega, .inr (by omega)⟩
      · simp only [e, e', decide_false, Bool.false_eq_true, if_false]
        refine ⟨by omega, ?_⟩
        rcases h2 with h2 | h2
        · left
          intro x hx hx'
          rcases List.mem_cons.1 hx with rfl | hx
          · exact absurd hx' e'
          · exact h2 x hx hx'
        · right; omega

/-- The sets have `a` wherever it belongs, or in at least `k` places. -/
def Level (nts : List T) (Target : T → T → Prop) (k : Nat) (a : T) (m : SymbolsMap T) : Prop :=
  (∀ x ∈ nts, Target x a → a ∈ look m x) ∨ k ≤ cnt nts m a

theorem Level.complete {nts : List T} {Target : T → T → Prop} {a : T} {m : SymbolsMap T}
    (h : Level nts Target nts.length a m) : ∀ x ∈ nts, Target x a → a ∈ look m x := by
  rcases h with h | h
  · exact h
  · exact fun x hx _ => cnt_all h x hx

theorem Level.step {nts : List T} {Target : T → T → Prop} {k : Nat} {a : T} {m m' : SymbolsMap T}
    (h : Level nts Target k a m) (hsub : ∀ x ∈ nts, a ∈ look m x → a ∈ look m' x)
    (hc : (∀ x ∈ nts, a ∈ look m' x → a ∈ look m x) → ∀ x ∈ nts, Target x a → a ∈ look m x) :
    Level nts Target (k + 1) a m' := by
  rcases h with h | h
  · exact .inl fun x hx ht => hsub x hx (h x hx ht)
  · rcases (cnt_step hsub).2 with h' | h'
    · exact .inl fun x hx ht => hsub x hx (hc h' x hx ht)
    · exact .inr (by omega)

theorem size_le_mem {nts : List T} {m m' : SymbolsMap T}
    (h : ∀ x ∈ nts, (look m x).length ≤ (look m' x).length) : size nts m ≤ size nts m' := by
  induction nts with
  | nil => simp [size]
  | cons x nts ih =>
    have h1 := h x (by simp)
    have h2 := ih (fun y hy => h y (by simp [hy]))
    simp only [size, List.map_cons, List.sum_cons] at h2 ⊢
    omega

/-- A round over complete sets changes nothing. -/
theorem MapGrows.false_of_complete {nts : List T} {m m' : SymbolsMap T} {u : Bool}
    (h : MapGrows nts m m' u) (hn : ∀ x, (look m' x).Nodup)
    (hc : ∀ x ∈ nts, ∀ a ∈ look m' x, a ∈ look m x) : u = false := by
  cases u with
  | false => rfl
  | true =>
    have h1 := h.more rfl
    have h2 : size nts m' ≤ size nts m := size_le_mem fun x hx =>
      (List.subperm_of_subset (hn x) (hc x hx)).length_le
    omega

variable {eps init : T} {ps : List (Production T)} {g : Grammar T}

/-! ## FIRST -/

theorem Closed.eps_mem {F : T → List T} {cur l : List T} (h : Closed eps F cur l)
    (H : ∀ x ∈ l, eps ∈ F x) : eps ∈ cur := by
  induction l with
  | nil => exact h
  | cons x l ih => exact ih (h.2 (H x (by simp))) (fun y hy => H y (by simp [hy]))

theorem Closed.start_mem {F : T → List T} {cur w v : List T} {y : T}
    (h : Closed eps F cur (w ++ y :: v)) (hw : ∀ x ∈ w, eps ∈ F x) {a : T} (ha : a ∈ F y)
    (hne : a ≠ eps) : a ∈ cur := by
  induction w with
  | nil => exact h.1 a ha hne
  | cons x w ih => exact ih (h.2 (hw x (by simp))) (fun z hz => hw z (by simp [hz]))

theorem first_levels (h : HashOrder T) (G : GrammarOf eps init ps g) (nts : List T)
    (hnts : ∀ x, x ∈ nts ↔ IsNonTerminal ps x) (m : SymbolsMap T) (I : FirstInv eps ps m) (k : Nat)
    (hl : Level nts (FirstOk eps ps) (min k nts.length) eps m ∧
      ∀ a, a ≠ eps → Level nts (FirstOk eps ps) (k - nts.length) a m) (hk : k ≤ 2 * nts.length) :
    ∃ m' u, firstRoundLoop h g nts m = .ok (m', u) ∧ FirstInv eps ps m' ∧
      (Level nts (FirstOk eps ps) (min (k + 1) nts.length) eps m' ∧
        ∀ a, a ≠ eps → Level nts (FirstOk eps ps) (k + 1 - nts.length) a m') ∧
      (k = 2 * nts.length → u = false) := by
  obtain ⟨m', u, h1, h2, h3, h4⟩ := firstRoundLoop_spec h G nts nts hnts (fun x hx => (hnts x).1 hx) m I
  have hst : ∀ p ∈ ps, StepProd eps (look m) (look m') p :=
    fun p hp => h4 p.input ((hnts _).2 ⟨p, hp, rfl⟩) p hp rfl
  have hsub : ∀ a, ∀ x ∈ nts, a ∈ look m x → a ∈ look m' x := fun a x _ ha => h3.sub x a ha
  refine ⟨m', u, h1, h2, ⟨?_, ?_⟩, ?_⟩
  · by_cases hkN : k < nts.length
    · rw [Nat.min_eq_left (by omega)] at hl ⊢
      refine hl.1.step (hsub eps) ?_
      intro hsame x hx ht
      have hn : Nullable eps ps x := by
        rcases ht with ⟨_, h'⟩ | h'
        · exact h'
        · exact absurd rfl h'.2.1
      refine nullable_of_closed (fun x => eps ∈ look m x) ?_ hn
      intro p hp H
      exact hsame _ ((hnts _).2 ⟨p, hp, rfl⟩) ((hst p hp).eps_mem H)
    · rw [Nat.min_eq_right (by omega)] at hl
      exact .inl fun x hx ht => hsub eps x hx (hl.1.complete x hx ht)
  · intro a ha
    by_cases hkN : k < nts.length
    · exact .inr (by omega)
    · rw [Nat.min_eq_right (by omega)] at hl
      rw [show k + 1 - nts.length = (k - nts.length) + 1 by omega]
      refine (hl.2 a ha).step (hsub a) ?_
      intro hsame x hx ht
      have hs : CanStart eps ps x a := by
        rcases ht with ⟨h', _⟩ | h'
        · exact absurd h' ha
        · exact h'
      refine (canStart_of_closed (fun x => eps ∈ look m x)
        (fun y b => b ≠ eps ∧ (b = a → a ∈ look m y)) ?_ ?_ ?_ hs).2 rfl
      · intro p hp H
        have hx := (hnts p.input).2 ⟨p, hp, rfl⟩
        exact hl.1.complete _ hx (h2.sound _ ((hnts _).1 hx) _ ((hst p hp).eps_mem H))
      · intro p hp w y v e hw b hb
        refine ⟨hb.1, fun e' => ?_⟩
        have hst' := hst p hp
        unfold StepProd at hst'
        rw [e] at hst'
        exact hsame _ ((hnts _).2 ⟨p, hp, rfl⟩) (hst'.start_mem hw (hb.2 e') ha)
      · intro b hb hne
        refine ⟨hne, fun e' => ?_⟩
        subst e'
        rw [look_of_get (I.term b hb)]
        simp
  · intro e
    subst e
    refine h3.false_of_complete h2.nodup ?_
    intro x hx a ha
    have ht := h2.sound x ((hnts x).1 hx) a ha
    by_cases hae : a = eps
    · subst hae
      have := hl.1
      rw [Nat.min_eq_right (by omega)] at this
      exact this.complete x hx ht
    · have := hl.2 a hae
      rw [show 2 * nts.length - nts.length = nts.length by omega] at this
      exact this.complete x hx ht

theorem firstInv_initial (h : HashOrder T) (G : GrammarOf eps init ps g) :
    FirstInv eps ps (firstInitialMap (g.getNonTerminalSymbols h) (g.getTerminalSymbols h)) := by
  have hnts : ∀ x, x ∈ g.getNonTerminalSymbols h ↔ IsNonTerminal ps x := by
    intro x; rw [Grammar.getNonTerminalSymbols, h.mem_ord, G.mem_nts]
  have hts : ∀ x, x ∈ g.getTerminalSymbols h ↔ IsTerminal ps x := by
    intro x; rw [Grammar.getTerminalSymbols, h.mem_ord, G.mem_ts]
  constructor
  · intro x
    rw [firstInitialMap_get]
    by_cases h1 : IsTerminal ps x
    · simp [(hts x).2 h1, h1]
    · by_cases h2 : IsNonTerminal ps x
      · simp [hts, hnts, h1, h2]
      · simp [hts, hnts, h1, h2]
  · intro x hx
    rw [firstInitialMap_get, if_pos ((hts x).2 hx)]
  · intro x
    unfold look
    rw [firstInitialMap_get]
    split
    · simp
    · split <;> simp
  · intro x hx a ha
    unfold look at ha
    rw [firstInitialMap_get, if_neg (fun e => ((hts x).1 e).2 hx), if_pos ((hnts x).2 hx)] at ha
    simp at ha

/-- `2 n + 1` passes over the productions are enough for FIRST, for `n` non-terminals. -/
theorem first_passes (h : HashOrder T) (G : GrammarOf eps init ps g) :
    ∃ m, ∀ n, 2 * (g.getNonTerminalSymbols h).length < n → innerGetFirstSymbols h n g = .ok m := by
  have hnts : ∀ x, x ∈ g.getNonTerminalSymbols h ↔ IsNonTerminal ps x := by
    intro x; rw [Grammar.getNonTerminalSymbols, h.mem_ord, G.mem_nts]
  exact converge_levels (firstRoundLoop h g (g.getNonTerminalSymbols h)) (FirstInv eps ps) _
    (2 * (g.getNonTerminalSymbols h).length) (fun m k I hl hk => first_levels h G _ hnts m I k hl hk)
    _ (firstInv_initial h G) 0 (Nat.zero_le _) ⟨.inr (by simp), fun a _ => .inr (by simp)⟩

/-! ## FOLLOW -/

theorem follow_levels (h : HashOrder T) (G : GrammarOf eps init ps g) (nts : List T)
    (hnts : ∀ x, x ∈ nts ↔ IsNonTerminal ps x) {fm : SymbolsMap T} (FS : FirstSpec eps ps fm)
    (m : SymbolsMap T) (I : FollowInv eps ps m) (k : Nat)
    (hl : ∀ a, Level nts (FollowRule eps ps) k a m) :
    ∃ m' u, followRoundLoop h g fm nts m = .ok (m', u) ∧ FollowInv eps ps m' ∧
      (∀ a, Level nts (FollowRule eps ps) (k + 1) a m') ∧ (k = nts.length → u = false) := by
  obtain ⟨m', u, h1, h2, h3, h4⟩ :=
    followRoundLoop_spec h G nts nts hnts (fun x hx => (hnts x).1 hx) FS m I
  have hst : ∀ p ∈ ps, StepFollow eps ps (look m) (look m') p :=
    fun p hp => h4 p.input ((hnts _).2 ⟨p, hp, rfl⟩) p hp rfl
  refine ⟨m', u, h1, h2, ?_, ?_⟩
  · intro a
    refine (hl a).step (fun x _ ha => h3.sub x a ha) ?_
    intro hsame x _ ht
    induction ht with
    | first hp hd hx ht ha => exact hsame _ ((hnts _).2 hx) ((hst _ hp).first _ _ _ hd hx ht _ ha)
    | last hp hd hx ht _ ih =>
      exact hsame _ ((hnts _).2 hx) ((hst _ hp).last _ _ _ hd hx ht _ (ih hsame ((hnts _).2 ⟨_, hp, rfl⟩)))
  · intro e
    subst e
    refine h3.false_of_complete h2.nodup ?_
    intro x hx a ha
    exact (hl a).complete x hx (h2.sound x a ha)

/-- `n + 1` passes over the productions are enough for FOLLOW, for `n` non-terminals. -/
theorem follow_passes (h : HashOrder T) (G : GrammarOf eps init ps g) {fm : SymbolsMap T}
    (FS : FirstSpec eps ps fm) :
    ∃ m, ∀ n, (g.getNonTerminalSymbols h).length < n → innerGetFollowSymbols h n g fm = .ok m := by
  have hnts : ∀ x, x ∈ g.getNonTerminalSymbols h ↔ IsNonTerminal ps x := by
    intro x; rw [Grammar.getNonTerminalSymbols, h.mem_ord, G.mem_nts]
  have hget0 : ∀ x, (HMap.fromIter ((g.getNonTerminalSymbols h).map (fun x => (x, ([] : List T))))).get x
      = if x ∈ g.getNonTerminalSymbols h then some [] else none :=
    fun x => HMap.get_fromIter_map _ _ _
  have hlk : ∀ x, look (HMap.fromIter ((g.getNonTerminalSymbols h).map
      (fun x => (x, ([] : List T))))) x = [] := by
    intro x; unfold look; rw [hget0]; split <;> simp
  refine converge_levels (followRoundLoop h g fm (g.getNonTerminalSymbols h)) (FollowInv eps ps) _
    (g.getNonTerminalSymbols h).length (fun m k I hl _ => follow_levels h G _ hnts FS m I k hl)
    _ ⟨?_, ?_, ?_⟩ 0 (Nat.zero_le _) (fun a => .inr (by simp))
  · intro x
    rw [hget0]
    by_cases h' : IsNonTerminal ps x <;> simp [hnts, h']
  · intro x; rw [hlk]; simp
  · intro x a ha; rw [hlk] at ha; simp at ha

/-- The number of passes of each of the two loops that is always enough. -/
theorem from_passes (h : HashOrder T) (G : GrammarOf eps init ps g) :
    ∃ ff, Spec eps ps ff ∧
      ∀ n, 2 * (g.getNonTerminalSymbols h).length + 1 ≤ n → FirstFollow.from h n g = .ok ff := by
  obtain ⟨fm, FS, h1⟩ := innerGetFirstSymbols_bound h G
  obtain ⟨fo, FO, h2⟩ := innerGetFollowSymbols_bound h G FS
  obtain ⟨fm', h1'⟩ := first_passes h G
  obtain ⟨fo', h2'⟩ := follow_passes h G FS
  have e1 : fm' = fm := by
    have := (h1' _ (Nat.lt_of_lt_of_le (Nat.lt_succ_self _) (Nat.le_max_left _
      ((g.getNonTerminalSymbols h).length * (eps :: g.terminalSymbolsSet).length + 1)))).symm.trans
      (h1 _ (Nat.le_max_right _ _))
    cases this; rfl
  have e2 : fo' = fo := by
    have := (h2' _ (Nat.lt_of_lt_of_le (Nat.lt_succ_self _) (Nat.le_max_left _
      ((g.getNonTerminalSymbols h).length * g.terminalSymbolsSet.length + 1)))).symm.trans
      (h2 _ (Nat.le_max_right _ _))
    cases this; rfl
  subst e1 e2
  refine ⟨⟨fm', fo'⟩, ⟨FS, FO⟩, ?_⟩
  intro n hn
  simp [FirstFollow.from, h1' n (by omega), h2' n (by omega)]

end FirstFollow

end Verif
