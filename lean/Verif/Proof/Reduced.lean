import Mathlib.Data.List.Pairwise
import Verif.Spec.LL1
import Verif.Spec.Reduced
import Verif.Proof.CFG

/-! # LL(1) grammars without useless symbols are not left-recursive -/

set_option linter.unusedSectionVars false

namespace Verif.Spec

variable {T : Type} [DecidableEq T] {eps init : T} {ps : List (Production T)}

/-- `x` has a derivation tree of height at most `n`. -/
inductive Height (eps : T) (ps : List (Production T)) : Nat → T → Prop where
  | terminal (n : Nat) (x : T) : ¬ IsNonTerminal ps x → Height eps ps n x
  | node (n : Nat) (p : Production T) : p ∈ ps → (∀ y ∈ rhs eps p, Height eps ps n y) →
      Height eps ps (n + 1) p.input

theorem Height.mono {n m : Nat} {x : T} (h : Height eps ps n x) (hm : n ≤ m) :
    Height eps ps m x := by
  induction h generalizing m with
  | terminal n x hx => exact .terminal m x hx
  | node n p hp _ ih =>
    obtain ⟨m, rfl⟩ : ∃ k, m = k + 1 := ⟨m - 1, by omega⟩
    exact .node m p hp fun y hy => ih y hy (by omega)

theorem Height.bound {l : List T} (h : ∀ x ∈ l, ∃ n, Height eps ps n x) :
    ∃ n, ∀ x ∈ l, Height eps ps n x := by
  induction l with
  | nil => exact ⟨0, by simp⟩
  | cons x l ih =>
    obtain ⟨n, hn⟩ := ih fun y hy => h y (by simp [hy])
    obtain ⟨m, hm⟩ := h x (by simp)
    refine ⟨n + m, fun y hy => ?_⟩
    rcases List.mem_cons.1 hy with rfl | hy
    · exact hm.mono (by omega)
    · exact (hn y hy).mono (by omega)

theorem height_of_derives {u w : List T} (h : Derives eps ps u w)
    (hw : ∀ a ∈ w, ¬ IsNonTerminal ps a) : ∀ x ∈ u, ∃ n, Height eps ps n x := by
  induction h with
  | refl => exact fun x hx => ⟨0, .terminal 0 x (hw x hx)⟩
  | step s _ ih =>
    have ih := ih hw
    cases s with
    | mk a b p hp =>
      intro x hx
      simp only [List.mem_append, List.mem_cons] at hx ih
      rcases hx with hx | rfl | hx
      · exact ih x (by simp [hx])
      · obtain ⟨n, hn⟩ := Height.bound (eps := eps) (ps := ps) (l := rhs eps p)
          fun y hy => ih y (by simp [hy])
        exact ⟨_, .node n p hp hn⟩
      · exact ih x (by simp [hx])

/-- Where the first symbol of a derived form comes from. -/
theorem Derives.head_split {l : List T} {y : T} {v : List T} (h : Derives eps ps l (y :: v)) :
    ∃ a B b v1 v2, l = a ++ B :: b ∧ Derives eps ps a [] ∧ Derives eps ps [B] (y :: v1) ∧
      Derives eps ps b v2 ∧ v = v1 ++ v2 := by
  induction l generalizing v with
  | nil => exact absurd h.nil_eq (by simp)
  | cons x l ih =>
    obtain ⟨c1, c2, hc, h1, h2⟩ := h.cons_split
    cases c1 with
    | nil =>
      simp only [List.nil_append] at hc
      subst hc
      obtain ⟨a, B, b, v1, v2, rfl, h3, h4, h5, rfl⟩ := ih h2
      refine ⟨x :: a, B, b, v1, v2, rfl, ?_, h4, h5, rfl⟩
      simpa using Derives.append (a := [x]) h1 h3
    | cons z c1 =>
      simp only [List.cons_append, List.cons.injEq] at hc
      obtain ⟨rfl, rfl⟩ := hc
      exact ⟨[], x, l, c1, c2, rfl, .refl _, h1, h2, rfl⟩

/-- Every form made of symbols of the grammar derives a string of terminals. -/
theorem derives_terminals (hprod : ∀ x, IsNonTerminal ps x → Productive eps ps x) {l : List T}
    (hl : ∀ x ∈ l, ¬ IsNonTerminal ps x → IsTerminal ps x ∧ x ≠ eps) :
    ∃ w, Derives eps ps l w ∧ ∀ a ∈ w, IsTerminal ps a ∧ a ≠ eps := by
  induction l with
  | nil => exact ⟨[], .refl _, by simp⟩
  | cons x l ih =>
    obtain ⟨w, h1, h2⟩ := ih fun y hy => hl y (by simp [hy])
    obtain ⟨u, h3, h4⟩ : ∃ u, Derives eps ps [x] u ∧ ∀ a ∈ u, IsTerminal ps a ∧ a ≠ eps := by
      by_cases hx : IsNonTerminal ps x
      · exact hprod x hx
      · exact ⟨[x], .refl _, by simpa using hl x (by simp) hx⟩
    refine ⟨u ++ w, Derives.append (a := [x]) h3 h1, ?_⟩
    intro a ha
    rcases List.mem_append.1 ha with ha | ha
    · exact h4 a ha
    · exact h2 a ha

/-- LL(1), no unproductive non-terminal, and every non-terminal followed by something or with at most one
production that derives the empty string. -/
theorem notLeftRecursive_of_ll1 (hw : WellFormed eps ps) (hll : IsLL1 eps ps)
    (hprod : ∀ x, IsNonTerminal ps x → Productive eps ps x)
    (hfol : ∀ x v, DerivesPlus eps ps [x] (x :: v) → (∃ a, CanFollow eps ps x a) ∨
      ∀ p ∈ ps, ∀ q ∈ ps, p.input = x → q.input = x → p ≠ q →
        ¬ (Derives eps ps (rhs eps p) [] ∧ Derives eps ps (rhs eps q) [])) :
    NotLeftRecursive eps ps := by
  classical
  have hheight : ∀ x, IsNonTerminal ps x → ∃ n, Height eps ps n x := by
    intro x hx
    obtain ⟨w, h1, h2⟩ := hprod x hx
    exact height_of_derives h1 (fun a ha => (h2 a ha).1.2) x (by simp)
  -- no left-recursive symbol has height `n`, by induction on `n`
  suffices hmain : ∀ n x v, Height eps ps n x → ¬ DerivesPlus eps ps [x] (x :: v) by
    intro x v hlr
    obtain ⟨b, hs, hb⟩ := id hlr
    obtain ⟨p, hp, hpx, _⟩ := hs.single
    obtain ⟨n, hn⟩ := hheight x ⟨p, hp, hpx⟩
    exact hmain n x v hn hlr
  intro n
  induction n with
  | zero =>
    rintro x v hh ⟨b, hs, _⟩
    obtain ⟨p, hp, hpx, _⟩ := hs.single
    cases hh with
    | terminal _ _ h => exact h ⟨p, hp, hpx⟩
  | succ n ih =>
    intro x v hh hlr
    obtain ⟨b, hs, hb⟩ := id hlr
    obtain ⟨p, hp, rfl, rfl⟩ := hs.single
    generalize hx : p.input = x at hh
    generalize hm : n + 1 = m at hh
    cases hh with
    | terminal _ _ h => exact h ⟨p, hp, hx⟩
    | node n' q hq hheights =>
      have : n' = n := by omega
      subst this
      obtain ⟨a, B, c, v1, v2, hrhs, ha, hB, hc, rfl⟩ := hb.head_split
      -- the form that begins with the symbol again
      have hform : Derives eps ps (rhs eps p) (p.input :: (v1 ++ v2)) := hb
      by_cases hpq : p = q
      · -- the lead is left-recursive and has a smaller height
        subst hpq
        have hBh : Height eps ps n' B := hheights B (by rw [hrhs]; simp)
        have hback : Derives eps ps (p.input :: v1) (B :: (c ++ v1)) := by
          have h1 := Derives.of_production (eps := eps) hp
          rw [hrhs] at h1
          have h2 : Derives eps ps (a ++ B :: c) (B :: c) := by
            simpa using Derives.append ha (Derives.refl (B :: c))
          simpa using (h1.trans h2).context [] v1
        generalize hz : p.input :: v1 = z at hB
        cases hB with
        | refl =>
          simp only [List.cons.injEq] at hz
          obtain ⟨rfl, rfl⟩ := hz
          exact ih _ _ hBh hlr
        | step s h =>
          exact ih B (c ++ v1) hBh ⟨_, s, h.trans (hz ▸ hback)⟩
      · -- two productions predicted by the same terminal
        have hdiff : ∀ t, ¬ (Predicts eps ps p t ∧ Predicts eps ps q t) := by
          have hsymm : ∀ {p q : Production T}, (p.input = q.input →
              ∀ a, ¬ (Predicts eps ps p a ∧ Predicts eps ps q a)) → (q.input = p.input →
              ∀ a, ¬ (Predicts eps ps q a ∧ Predicts eps ps p a)) :=
            fun h e a hh => h e.symm a ⟨hh.2, hh.1⟩
          have : Std.Symm (fun p q : Production T => p.input = q.input →
              ∀ a, ¬ (Predicts eps ps p a ∧ Predicts eps ps q a)) := ⟨fun _ _ h => hsymm h⟩
          exact (List.Pairwise.forall hll hp hq hpq) hx
        -- a terminal string derived with `q`
        have hsym : ∀ r ∈ ps, ∀ y ∈ rhs eps r, ¬ IsNonTerminal ps y → IsTerminal ps y ∧ y ≠ eps := by
          intro r hr y hy hnt
          rcases (Derives.of_production (eps := eps) hr).symbols hw y hy with h' | ⟨h', r', hr', hy'⟩
          · simp only [List.mem_singleton] at h'
            exact absurd ⟨r, hr, h'.symm⟩ hnt
          · exact ⟨⟨⟨r', hr', hy'⟩, hnt⟩, h'⟩
        obtain ⟨w, hqw, hwt⟩ := derives_terminals hprod (hsym q hq)
        have hAq : Derives eps ps [p.input] w := hx ▸ (Derives.of_production hq).trans hqw
        cases w with
        | cons t w' =>
          obtain ⟨ht, hte⟩ := hwt t (by simp)
          refine hdiff t ⟨⟨ht, hte, .inl ?_⟩, ht, hte, .inl ⟨w', hqw⟩⟩
          refine ⟨w' ++ (v1 ++ v2), hform.trans ?_⟩
          have := hAq.context [] (v1 ++ v2)
          simpa using this
        | nil =>
          have hsym2 : ∀ y ∈ v1 ++ v2, ¬ IsNonTerminal ps y → IsTerminal ps y ∧ y ≠ eps := by
            intro y hy hnt
            rcases hform.symbols hw y (by simp only [List.mem_cons]; exact .inr hy) with h' | ⟨h', r, hr, hy'⟩
            · exact hsym p hp y h' hnt
            · exact ⟨⟨⟨r, hr, hy'⟩, hnt⟩, h'⟩
          obtain ⟨u, hu, hut⟩ := derives_terminals hprod hsym2
          have hA : Derives eps ps [p.input] (p.input :: u) := by
            refine (Derives.of_production hp).trans (hform.trans ?_)
            have := hu.context [p.input] []
            simpa using this
          cases u with
          | cons t u' =>
            obtain ⟨ht, hte⟩ := hut t (by simp)
            refine hdiff t ⟨⟨ht, hte, .inl ⟨u', hform.trans ?_⟩⟩, ht, hte, .inr ⟨hqw, ?_⟩⟩
            · have h1 := hAq.context [] (v1 ++ v2)
              have h1 : Derives eps ps (p.input :: (v1 ++ v2)) (v1 ++ v2) := by simpa using h1
              exact h1.trans hu
            · rw [← hx]
              exact ⟨ht, hte, p.input, [], u', ⟨p, hp, rfl⟩, hA⟩
          | nil =>
            have hpn : Derives eps ps (rhs eps p) [] := by
              refine hform.trans ?_
              have h1 := hAq.context [] (v1 ++ v2)
              have h1 : Derives eps ps (p.input :: (v1 ++ v2)) (v1 ++ v2) := by simpa using h1
              exact h1.trans hu
            rcases hfol _ _ hlr with ⟨t, hfo⟩ | hno
            · exact hdiff t ⟨⟨hfo.1, hfo.2.1, .inr ⟨hpn, hfo⟩⟩, hfo.1, hfo.2.1, .inr ⟨hqw, hx ▸ hfo⟩⟩
            · exact hno p hp q hq rfl hx.symm hpq ⟨hpn, hqw⟩

end Verif.Spec
