import Verif.Props.Supplied

/-!
# Property C75: the computed sets and the textbook rules
-/

set_option linter.unusedSectionVars false

namespace Verif.Props

open Verif.Spec Verif.Examples

variable {T : Type} [DecidableEq T]

theorem inFirst_iff_look {ff : FirstFollow T} {x a : T} :
    InFirst ff x a ↔ a ∈ FirstFollow.look ff.firstSymbols x := by
  unfold InFirst FirstFollow.getFirstSymbols FirstFollow.look
  cases ff.firstSymbols.get x <;> simp

theorem inFollow_iff_look {ff : FirstFollow T} {x a : T} :
    InFollow ff x a ↔ a ∈ FirstFollow.look ff.followSymbols x := by
  unfold InFollow FirstFollow.getFollowSymbols FirstFollow.look
  cases ff.followSymbols.get x <;> simp

theorem rhs_of_split {eps : T} {p : Production T} (hw : p.input ≠ eps ∧ p.output ≠ [] ∧
    (eps ∈ p.output → p.output.length = 1)) {u v : List T} {y : T} (ho : p.output = u ++ y :: v)
    (hy : y ≠ eps) : rhs eps p = u ++ y :: v ∧ (∀ z ∈ u, z ≠ eps) ∧ ∀ z ∈ v, z ≠ eps := by
  have hn : eps ∉ p.output := by
    intro hc
    have h1 := hw.2.2 hc
    rw [ho] at h1 hc
    have hu : u = [] := by
      cases u with
      | nil => rfl
      | cons _ _ => simp at h1
    subst hu
    have hv : v = [] := by
      cases v with
      | nil => rfl
      | cons _ _ => simp at h1
    subst hv
    simp only [List.nil_append, List.mem_singleton] at hc
    exact hy hc.symm
  refine ⟨?_, ?_, ?_⟩
  · unfold rhs
    rw [if_neg, ho]
    intro hc
    rw [hc] at hn
    simp at hn
  · rintro z hz rfl
    exact hn (by rw [ho]; simp [hz])
  · rintro z hz rfl
    exact hn (by rw [ho]; simp [hz])

theorem inFirst_known {h : HashOrder T} {eps init : T} {ps : List (Production T)} {g : Grammar T}
    (hg : Grammar.new h eps init ps = .ok g) {ff : FirstFollow T}
    (hff : Returns (fun n => FirstFollow.from h n g) ff) {x a : T} (hx : InFirst ff x a) : IsNonTerminal ps x ∨ IsTerminal ps x := by
  obtain ⟨s, hs, _⟩ := hx
  refine ((first_follow_spec hg hff).first.inv.dom x).1 ?_
  unfold FirstFollow.getFirstSymbols at hs
  rw [hs]; rfl

/-- **C75.** The computed FIRST sets obey the textbook rules. -/
theorem C75_first_rules (h : HashOrder T) (eps init : T) (ps : List (Production T)) (g : Grammar T)
    (hg : Grammar.new h eps init ps = .ok g) (ff : FirstFollow T)
    (hff : Returns (fun n => FirstFollow.from h n g) ff) :
    (∀ a, IsTerminal ps a → InFirst ff a a) ∧
    (∀ p ∈ ps, ∀ u y v a, p.output = u ++ y :: v → (∀ z ∈ u, InFirst ff z eps) → a ≠ eps →
      InFirst ff y a → InFirst ff p.input a) ∧
    (∀ p ∈ ps, (∀ z ∈ p.output, InFirst ff z eps) → InFirst ff p.input eps) := by
  have G := Grammar.grammarOf_of_new hg
  have S := (first_follow_spec hg hff).first
  refine ⟨?_, ?_, ?_⟩
  · intro a ha
    exact ⟨[a], S.inv.term a ha, by simp⟩
  · intro p hp u y v a ho hu hne hy
    have hk := inFirst_known hg hff hy
    rw [inFirst_iff_look] at hy ⊢
    rw [S.mem_iff hk hne] at hy
    rw [S.mem_iff (.inl ⟨p, hp, rfl⟩) hne]
    have hye : y ≠ eps := by
      rintro rfl
      obtain ⟨_, h1, v', hv'⟩ := hy
      have := hv'.terminal_eq (FirstFollow.eps_not_nt G)
      simp only [List.cons.injEq] at this
      exact h1 this.1
    obtain ⟨hr, hu', _⟩ := rhs_of_split (G.wf p hp) ho hye
    refine .of_production hp ⟨u, y, v, hr, ?_, hy⟩
    intro z hz
    have hz' := hu z hz
    have hk := inFirst_known hg hff hz'
    rw [inFirst_iff_look] at hz'
    exact (S.eps_mem hk (hu' z hz)).1 hz'
  · intro p hp hall
    rw [inFirst_iff_look, S.eps_mem (.inl ⟨p, hp, rfl⟩) (G.wf p hp).1]
    refine .of_production hp ?_
    intro z hz
    have hzo : z ∈ p.output := by
      unfold rhs at hz
      split at hz
      · simp at hz
      · exact hz
    have hz' := hall z hzo
    have hk := inFirst_known hg hff hz'
    rw [inFirst_iff_look] at hz'
    exact (S.eps_mem hk (FirstFollow.mem_rhs_ne_eps G hp hz)).1 hz'

/-- **C75.** The computed sets are contained in all sets that obey the textbook rules. -/
theorem C75_least (h : HashOrder T) (eps init : T) (ps : List (Production T)) (g : Grammar T)
    (hg : Grammar.new h eps init ps = .ok g) (ff : FirstFollow T)
    (hff : Returns (fun n => FirstFollow.from h n g) ff) (ff' : FirstFollow T) (hob : ObeysRules eps ps ff') :
    (∀ x a, InFirst ff x a → InFirst ff' x a) ∧ ∀ x a, InFollow ff x a → InFollow ff' x a := by
  have G := Grammar.grammarOf_of_new hg
  have S := first_follow_spec hg hff
  obtain ⟨h1, h2, h3⟩ := C69_closed_sets_contain eps ps G.wf ff' hob
  constructor
  · intro x a hx
    have hk := inFirst_known hg hff hx
    rw [inFirst_iff_look] at hx
    by_cases hnt : IsNonTerminal ps x
    · rw [S.first.mem_nt x hnt] at hx
      rcases hx with ⟨rfl, hx⟩ | hx
      · exact h1 x hx
      · exact h2 x a hx
    · have ht := hk.resolve_left hnt
      rw [FirstFollow.look_of_get (S.first.inv.term x ht), List.mem_singleton] at hx
      subst hx
      exact hob.terminal a ht
  · intro x a hx
    have hnt : IsNonTerminal ps x := by
      obtain ⟨s, hs, _⟩ := hx
      refine (S.follow.dom x).1 ?_
      unfold FirstFollow.getFollowSymbols at hs
      rw [hs]; rfl
    exact h3 x a hnt ((follow_mem_iff hg hff hnt a).1 hx).canFollow

/-- **C75.** The computed sets obey all textbook rules - and then they are the least sets that do - exactly if
for every `X X` in a right-hand side everything that can start `X` is in FOLLOW(`X`) for another reason. -/
theorem C75_obeys_iff (h : HashOrder T) (eps init : T) (ps : List (Production T)) (g : Grammar T)
    (hg : Grammar.new h eps init ps = .ok g) (ff : FirstFollow T)
    (hff : Returns (fun n => FirstFollow.from h n g) ff) :
    ObeysRules eps ps ff ↔
      ∀ p ∈ ps, ∀ u X t a, p.output = u ++ X :: X :: t → IsNonTerminal ps X → CanStart eps ps X a →
        InFollow ff X a := by
  have G := Grammar.grammarOf_of_new hg
  have S := first_follow_spec hg hff
  have hiff := C09_follow_complete_iff h eps init ps g hg ff hff
  constructor
  · intro hob
    exact hiff.1 (C69_closed_sets_contain eps ps G.wf ff hob).2.2
  · intro H
    have hcomp := hiff.2 H
    obtain ⟨r1, r2, r3⟩ := C75_first_rules h eps init ps g hg ff hff
    have hnull : ∀ z, z ≠ eps → InFirst ff z eps → Nullable eps ps z := by
      intro z hz hz'
      have hk := inFirst_known hg hff hz'
      rw [inFirst_iff_look] at hz'
      exact (S.first.eps_mem hk hz).1 hz'
    refine ⟨r1, r2, r3, ?_, ?_⟩
    · intro p hp u x m y v a ho hx hm hne hy
      refine hcomp x a hx ?_
      have hk := inFirst_known hg hff hy
      rw [inFirst_iff_look, S.first.mem_iff hk hne] at hy
      have hxe : x ≠ eps := by
        rintro rfl
        exact FirstFollow.eps_not_nt G hx
      obtain ⟨hr, _, hv⟩ := rhs_of_split (G.wf p hp) ho hxe
      have hm' : StrNullable eps ps m := fun z hz => hnull z (hv z (by simp [hz])) (hm z hz)
      obtain ⟨ht, _, w, hw⟩ := hy
      refine ⟨ht, hne, p.input, u, w ++ v, ⟨p, hp, rfl⟩, ?_⟩
      have e1 := Derives.of_production (eps := eps) hp
      rw [hr] at e1
      have e2 := (Derives.append hm'.derives (hw.append (.refl v))).context (u ++ [x]) []
      simp only [List.append_assoc, List.cons_append, List.nil_append, List.append_nil] at e2
      exact e1.trans e2
    · intro p hp u x v a ho hx hv ha
      refine hcomp x a hx ?_
      have hA : IsNonTerminal ps p.input := ⟨p, hp, rfl⟩
      obtain ⟨ht, hne, n, u', v', hn, hd⟩ := ((follow_mem_iff hg hff hA a).1 ha).canFollow
      have hxe : x ≠ eps := by
        rintro rfl
        exact FirstFollow.eps_not_nt G hx
      obtain ⟨hr, _, hv'⟩ := rhs_of_split (G.wf p hp) ho hxe
      have hv'' : StrNullable eps ps v := fun z hz => hnull z (hv' z hz) (hv z hz)
      refine ⟨ht, hne, n, u' ++ u, v', hn, ?_⟩
      have e1 := (Derives.of_production (eps := eps) hp).context u' (a :: v')
      rw [hr] at e1
      have e2 := hv''.derives.context (u' ++ u ++ [x]) (a :: v')
      simp only [List.append_assoc, List.cons_append, List.nil_append, List.append_nil] at e1 e2 hd ⊢
      exact (hd.trans e1).trans e2

/-- In particular if no right-hand side has the same non-terminal twice in a row. -/
theorem C75_no_adjacent_repeat (h : HashOrder T) (eps init : T) (ps : List (Production T)) (g : Grammar T)
    (hg : Grammar.new h eps init ps = .ok g) (ff : FirstFollow T)
    (hff : Returns (fun n => FirstFollow.from h n g) ff) (hadj : NoAdjacentRepeat ps) : ObeysRules eps ps ff :=
  (C75_obeys_iff h eps init ps g hg ff hff).2 fun p hp u X t _ ho hX _ => absurd hX (hadj p hp u X t ho)

/-- The hypotheses are met, with sets that obey the rules … -/
example : ∃ g ff, Grammar.new (HashOrder.id Nat) 0 1 exprPs = .ok g ∧
    Returns (fun n => FirstFollow.from (HashOrder.id Nat) n g) ff ∧ ObeysRules 0 exprPs ff := by
  obtain ⟨g, ff, hg, hff⟩ : ∃ g ff, Grammar.new (HashOrder.id Nat) 0 1 exprPs = .ok g ∧
      Returns (fun n => FirstFollow.from (HashOrder.id Nat) n g) ff :=
    ⟨_, _, rfl, FirstFollow.returns_of_from (n := 10) rfl⟩
  exact ⟨g, ff, hg, hff, C75_no_adjacent_repeat _ _ _ _ g hg ff hff exprPs_noAdjacentRepeat⟩

/-- … and with sets that do not. -/
theorem C75_may_not_obey : ∃ g ff, Grammar.new (HashOrder.id Nat) 0 1 twicePs = .ok g ∧
    Returns (fun n => FirstFollow.from (HashOrder.id Nat) n g) ff ∧ ¬ ObeysRules 0 twicePs ff := by
  obtain ⟨g, ff, hg, hff, h2, _, _, hc, _⟩ := C09_follow_incomplete
  refine ⟨g, ff, hg, hff, fun hob => ?_⟩
  have hX : IsNonTerminal twicePs 2 := by unfold IsNonTerminal; decide
  obtain ⟨s, hs, hm⟩ := (C69_closed_sets_contain 0 twicePs (Grammar.grammarOf_of_new hg).wf ff hob).2.2 2 10 hX hc
  rw [h2] at hs
  cases hs
  simp at hm

end Verif.Props
