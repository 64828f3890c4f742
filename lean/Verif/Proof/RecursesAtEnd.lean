import Verif.Spec.RecursesAtEnd
import Verif.Proof.StackMachine
import Verif.Proof.Expands
import Mathlib.Computability.MyhillNerode
import Mathlib.Data.Set.Finite.List

/-!
# Grammars that recurse at the end only have bounded stacks
-/

set_option linter.unusedSectionVars false

namespace Verif.RecursesAtEnd

open Verif.Spec Verif.Parser

variable {T : Type} [DecidableEq T] {eps : T} {ps : List (Production T)}

/-! ## Ranks -/

theorem of_rank {rank : T → Nat} (hr : RankedAtEnd ps rank) : RecursesAtEnd eps ps := by
  have key : ∀ x : T, ∀ {a c : List T}, Derives eps ps a c →
      (∀ u y v, a = u ++ y :: v → IsNonTerminal ps y → rank y < rank x ∨ v = [] ∧ rank y ≤ rank x) →
      ∀ u y v, c = u ++ y :: v → IsNonTerminal ps y → rank y < rank x ∨ v = [] ∧ rank y ≤ rank x := by
    intro x a c h
    induction h with
    | refl a => exact id
    | step h1 _ ih =>
      intro H
      refine ih ?_
      obtain ⟨u0, v0, q, hq⟩ := h1
      have h0 := H u0 q.input v0 rfl ⟨q, hq, rfl⟩
      intro u y v e hy
      rw [List.append_assoc, List.append_eq_append_iff] at e
      rcases e with ⟨w, e1, e2⟩ | ⟨w, e1, e2⟩
      · rw [List.append_eq_append_iff] at e2
        rcases e2 with ⟨z, e3, e4⟩ | ⟨z, e3, e4⟩
        · exact H (u0 ++ q.input :: z) y v (by rw [e4]; simp) hy
        · cases z with
          | nil =>
            rw [List.nil_append] at e4
            exact H (u0 ++ [q.input]) y v (by rw [← e4]; simp) hy
          | cons z0 z =>
            simp only [List.cons_append, List.cons.injEq] at e4
            obtain ⟨rfl, rfl⟩ := e4
            have hout : q.output = w ++ y :: z := by
              unfold rhs at e3
              split_ifs at e3
              · simp at e3
              · exact e3
            rcases hr q hq w y z hout hy with h | ⟨rfl, h⟩
            · left
              rcases h0 with h0 | ⟨-, h0⟩ <;> omega
            · rcases h0 with h0 | ⟨rfl, h0⟩
              · left; omega
              · right; exact ⟨rfl, by omega⟩
      · cases w with
        | nil =>
          rw [List.append_nil] at e1
          subst e1
          rw [List.nil_append] at e2
          cases hrhs : rhs eps q with
          | nil =>
            rw [hrhs, List.nil_append] at e2
            exact H (u0 ++ [q.input]) y v (by rw [← e2]; simp) hy
          | cons r0 r =>
            rw [hrhs, List.cons_append, List.cons.injEq] at e2
            obtain ⟨rfl, rfl⟩ := e2
            have hout : q.output = [] ++ y :: r := by
              unfold rhs at hrhs
              split_ifs at hrhs
              · exact hrhs
            rcases hr q hq [] y r hout hy with h | ⟨rfl, h⟩
            · left
              rcases h0 with h0 | ⟨-, h0⟩ <;> omega
            · rcases h0 with h0 | ⟨rfl, h0⟩
              · left; omega
              · right; exact ⟨rfl, by omega⟩
        | cons w0 w =>
          simp only [List.cons_append, List.cons.injEq] at e2
          obtain ⟨rfl, e2⟩ := e2
          rcases H u y (w ++ q.input :: v0) (by rw [e1]; simp) hy with h | ⟨h, -⟩
          · exact .inl h
          · simp at h
  intro x u b v h
  obtain ⟨c, h1, h2⟩ := h
  have hx : IsNonTerminal ps x := by
    generalize ha : [x] = a at h1
    obtain ⟨u0, v0, q, hq⟩ := h1
    cases u0 with
    | nil =>
      simp only [List.nil_append, List.cons.injEq] at ha
      exact ⟨q, hq, ha.1.symm⟩
    | cons _ u0 => simp at ha
  rcases key x (Derives.step h1 h2) (by
    intro u y v e hy
    cases u with
    | nil =>
      simp only [List.nil_append, List.cons.injEq] at e
      obtain ⟨rfl, rfl⟩ := e
      exact .inr ⟨rfl, le_refl _⟩
    | cons _ u => simp at e) u x (b :: v) rfl hx with h | ⟨h, -⟩
  · omega
  · simp at h

theorem exists_rank (hw : WellFormed eps ps) (h : RecursesAtEnd eps ps) : ∃ rank, RankedAtEnd ps rank := by
  classical
  let reach : T → T → Prop := fun x y => ∃ u v, Derives eps ps [x] (u ++ y :: v)
  refine ⟨fun x => ((ps.map (·.input)).toFinset.filter (fun y => reach x y)).card, ?_⟩
  intro q hq u y v e hy
  have hye : y ≠ eps := by
    rintro rfl
    obtain ⟨q', hq', e'⟩ := hy
    exact (hw q' hq').1 e'
  have hrhs : rhs eps q = u ++ y :: v := by
    unfold rhs
    split_ifs with hc
    · exfalso
      have : y ∈ q.output := by rw [e]; simp
      rw [hc, List.mem_singleton] at this
      exact hye this
    · exact e
  have hd : Derives eps ps [q.input] (u ++ y :: v) := hrhs ▸ Derives.of_production hq
  have hsub : (ps.map (·.input)).toFinset.filter (fun z => reach y z) ⊆
      (ps.map (·.input)).toFinset.filter (fun z => reach q.input z) := by
    intro z hz
    rw [Finset.mem_filter] at hz ⊢
    obtain ⟨h1, u', v', h2⟩ := hz
    refine ⟨h1, u ++ u', v' ++ v, hd.trans ?_⟩
    simpa using h2.context u v
  cases v with
  | nil => exact .inr ⟨rfl, Finset.card_le_card hsub⟩
  | cons b v =>
    left
    refine Finset.card_lt_card ⟨hsub, fun hc => ?_⟩
    have hself : q.input ∈ (ps.map (·.input)).toFinset.filter (fun z => reach q.input z) := by
      rw [Finset.mem_filter]
      exact ⟨by simpa using ⟨q, hq, rfl⟩, [], [], .refl _⟩
    have := hc hself
    rw [Finset.mem_filter] at this
    obtain ⟨-, u', v', h2⟩ := this
    have h3 := h2.context u (b :: v)
    have hstep : Step eps ps [q.input] (u ++ y :: b :: v) := by
      have := Step.mk (eps := eps) [] [] q hq
      rw [hrhs] at this
      simpa using this
    cases v' with
    | nil => exact h q.input (u ++ u') b v ⟨_, hstep, by simpa using h3⟩
    | cons b' v' => exact h q.input (u ++ u') b' (v' ++ b :: v) ⟨_, hstep, by simpa using h3⟩

/-! ## Stacks -/

/-- How long the list of an output can be. -/
def longest (ps : List (Production T)) : Nat := (ps.map (·.output.length)).foldr max 0

theorem le_longest {q : Production T} (hq : q ∈ ps) : q.output.length ≤ longest ps := by
  unfold longest
  induction ps with
  | nil => simp at hq
  | cons p ps ih =>
    simp only [List.map_cons, List.foldr_cons]
    rcases List.mem_cons.1 hq with rfl | hq
    · omega
    · have := ih hq
      omega

open Classical in
/-- How much room a symbol needs on the stack. -/
noncomputable def room (ps : List (Production T)) (rank : T → Nat) (x : T) : Nat :=
  if IsNonTerminal ps x then longest ps * (rank x + 1) + 1 else 1

/-- The stacks that occur: every symbol has the room it needs. -/
def Fits (ps : List (Production T)) (rank : T → Nat) (init : T) (st : List T) : Prop :=
  (∀ y ∈ st, y = init ∨ ∃ q ∈ ps, y ∈ q.output) ∧
    ∀ u x v, st = u ++ x :: v → v.length + room ps rank x ≤ room ps rank init

variable {rank : T → Nat} {init : T}

theorem Fits.start : Fits ps rank init [init] := by
  refine ⟨by simp, fun u x v e => ?_⟩
  cases u with
  | nil =>
    simp only [List.nil_append, List.cons.injEq] at e
    obtain ⟨rfl, rfl⟩ := e
    simp
  | cons _ u => simp at e

theorem Fits.empty : Fits ps rank init [] := ⟨by simp, fun u x v e => by simp at e⟩

theorem Fits.drop {x : T} {st : List T} (h : Fits ps rank init (x :: st)) : Fits ps rank init st :=
  ⟨fun y hy => h.1 y (by simp [hy]), fun u y v e => h.2 (x :: u) y v (by rw [e]; rfl)⟩

theorem Fits.expand (hr : RankedAtEnd ps rank) {x : T} {out st : List T} (h : Fits ps rank init (x :: st))
    (hq : (⟨x, out⟩ : Production T) ∈ ps) : Fits ps rank init (out ++ st) := by
  refine ⟨fun y hy => ?_, fun u y v e => ?_⟩
  · rcases List.mem_append.1 hy with hy | hy
    · exact .inr ⟨_, hq, hy⟩
    · exact h.1 y (by simp [hy])
  · have hx : IsNonTerminal ps x := ⟨_, hq, rfl⟩
    have h0 := h.2 [] x st rfl
    rw [List.append_eq_append_iff] at e
    have inside : ∀ w, out = u ++ y :: w → v = w ++ st → v.length + room ps rank y ≤ room ps rank init := by
      intro w e1 e2
      have hl := le_longest hq
      simp only [e1, List.length_append, List.length_cons] at hl
      subst e2
      rw [List.length_append]
      have : w.length + room ps rank y ≤ room ps rank x := by
        unfold room
        rw [if_pos hx]
        split_ifs with hy
        · rcases hr _ hq u y w e1 hy with h | ⟨rfl, h⟩
          · have h' : longest ps * (rank y + 1) ≤ longest ps * rank x := Nat.mul_le_mul_left _ h
            have : longest ps * (rank x + 1) = longest ps * rank x + longest ps := by rw [Nat.mul_add, Nat.mul_one]
            omega
          · have h' : longest ps * (rank y + 1) ≤ longest ps * (rank x + 1) :=
              Nat.mul_le_mul_left _ (Nat.succ_le_succ h)
            simp only [List.length_nil]
            omega
        · have : longest ps * (rank x + 1) = longest ps * rank x + longest ps := by rw [Nat.mul_add, Nat.mul_one]
          omega
      omega
    rcases e with ⟨w, e1, e2⟩ | ⟨w, e1, e2⟩
    · exact h.2 (x :: w) y v (by rw [e2]; rfl)
    · cases w with
      | nil =>
        rw [List.nil_append] at e2
        exact h.2 [x] y v (by rw [← e2]; rfl)
      | cons w0 w =>
        simp only [List.cons_append, List.cons.injEq] at e2
        obtain ⟨rfl, rfl⟩ := e2
        exact inside w e1 rfl

theorem Fits.length_le {st : List T} (h : Fits ps rank init st) : st.length ≤ room ps rank init := by
  cases st with
  | nil => simp
  | cons x st =>
    have h0 := h.2 [] x st rfl
    have : 1 ≤ room ps rank x := by unfold room; split_ifs <;> omega
    simp only [List.length_cons]
    omega

theorem finite_fits : {st | Fits ps rank init st}.Finite := by
  let A := {x // x ∈ init :: ps.flatMap (·.output)}
  have : Finite A := Set.finite_coe_iff.2 (List.finite_toSet _)
  refine ((List.finite_length_le A (room ps rank init)).image (List.map Subtype.val)).subset ?_
  intro st h
  have hm : ∀ y ∈ st, y ∈ init :: ps.flatMap (·.output) := by
    intro y hy
    rcases h.1 y hy with rfl | ⟨q, hq, hy⟩
    · simp
    · exact List.mem_cons_of_mem _ (List.mem_flatMap.2 ⟨q, hq, hy⟩)
  exact ⟨st.attachWith _ hm, List.length_attachWith.le.trans h.length_le, by simp⟩

/-! ## Finitely many stacks -/

/-- A machine whose stacks are finitely many has a regular language. -/
theorem regular_of (f : List T → List T → Prop) (P : List T → Prop) (hfin : {st | P st}.Finite)
    (step : ∀ st a w, P st → f st (a :: w) → ∃ st', P st' ∧ f st' w ∧ ∀ w', f st' w' → f st (a :: w'))
    (st0 : List T) (h0 : P st0) (lang : Language T) (hlang : ∀ w, w ∈ lang ↔ f st0 w) : lang.IsRegular := by
  refine Language.IsRegular.of_finite_range_leftQuotient ?_
  have key : ∀ u v st, P st → f st (u ++ v) → ∃ st', P st' ∧ f st' v ∧ ∀ w, f st' w → f st (u ++ w) := by
    intro u
    induction u with
    | nil => intro v st hp h; exact ⟨st, hp, h, fun _ => id⟩
    | cons a u ih =>
      intro v st hp h
      obtain ⟨st1, h1, h2, h3⟩ := step st a (u ++ v) hp h
      obtain ⟨st2, h4, h5, h6⟩ := ih v st1 h1 h2
      exact ⟨st2, h4, h5, fun w hw => h3 _ (h6 w hw)⟩
  refine (hfin.finite_subsets.image (fun S : Set (List T) => ({v | ∃ st ∈ S, f st v} : Set (List T)))).subset ?_
  rintro _ ⟨u, rfl⟩
  refine ⟨{st | P st ∧ ∀ w, f st w → f st0 (u ++ w)}, fun st h => h.1, ?_⟩
  refine Set.ext fun v => ?_
  constructor
  · rintro ⟨st, ⟨-, h⟩, hv⟩
    exact (hlang _).2 (h v hv)
  · intro h
    obtain ⟨st, h1, h2, h3⟩ := key u v st0 h0 ((hlang _).1 h)
    exact ⟨st, ⟨h1, h3⟩, h2⟩

theorem empties_step (hr : RankedAtEnd ps rank) {cand : T → T → List (List T)}
    (hc : ∀ x a out, out ∈ cand x a → (⟨x, out⟩ : Production T) ∈ ps) (st : List T) (a : T) (w : List T)
    (hp : Fits ps rank init st) (h : Empties eps ps cand st (a :: w)) :
    ∃ st', Fits ps rank init st' ∧ Empties eps ps cand st' w ∧
      ∀ w', Empties eps ps cand st' w' → Empties eps ps cand st (a :: w') := by
  generalize hw : a :: w = w0 at h
  induction h with
  | done w0 => exact ⟨[], .empty, .done _, fun _ _ => .done _⟩
  | skip st w0 _ ih =>
    obtain ⟨st', h1, h2, h3⟩ := ih hp.drop hw
    exact ⟨st', h1, h2, fun w' h => .skip _ _ (h3 w' h)⟩
  | read b st w0 hb hne h _ =>
    cases hw
    exact ⟨st, hp.drop, h, fun w' h => .read _ _ _ hb hne h⟩
  | expand x b out st w0 hx ho _ ih =>
    obtain ⟨st', h1, h2, h3⟩ := ih (hp.expand hr (hc _ _ _ ho)) hw
    cases hw
    exact ⟨st', h1, h2, fun w' h => .expand _ _ _ _ _ hx ho (h3 w' h)⟩

theorem expandsAll_nil_drop {x : T} {st w : List T} (h : ExpandsAll eps ps (x :: st) w) :
    ∃ w1 w2, w = w1 ++ w2 ∧ Expands eps ps x w1 ∧ ExpandsAll eps ps st w2 := by
  cases h with
  | cons _ _ u v h1 h2 => exact ⟨u, v, rfl, h1, h2⟩

theorem expands_step (hr : RankedAtEnd ps rank) (st : List T) (a : T) (w : List T)
    (hp : Fits ps rank init st) (h : ExpandsAll eps ps st (a :: w)) :
    ∃ st', Fits ps rank init st' ∧ ExpandsAll eps ps st' w ∧
      ∀ w', ExpandsAll eps ps st' w' → ExpandsAll eps ps st (a :: w') := by
  have key : ∀ {xs : List T} {w : List T}, ExpandsAll eps ps xs w → ∀ a w1, w = a :: w1 →
      ∀ σ, Fits ps rank init (xs ++ σ) → ∃ st', Fits ps rank init (st' ++ σ) ∧ ExpandsAll eps ps st' w1 ∧
        ∀ w', ExpandsAll eps ps st' w' → ExpandsAll eps ps xs (a :: w') := by
    intro xs w h
    refine ExpandsAll.rec (eps := eps) (ps := ps)
      (motive_1 := fun x w _ => ∀ a w1, w = a :: w1 → ∀ σ, Fits ps rank init (x :: σ) →
        ∃ st', Fits ps rank init (st' ++ σ) ∧ ExpandsAll eps ps st' w1 ∧
          ∀ w', ExpandsAll eps ps st' w' → Expands eps ps x (a :: w'))
      (motive_2 := fun xs w _ => ∀ a w1, w = a :: w1 → ∀ σ, Fits ps rank init (xs ++ σ) →
        ∃ st', Fits ps rank init (st' ++ σ) ∧ ExpandsAll eps ps st' w1 ∧
          ∀ w', ExpandsAll eps ps st' w' → ExpandsAll eps ps xs (a :: w')) ?_ ?_ ?_ ?_ h
    · rintro x h1 h2 a w1 e σ hf
      cases e
      refine ⟨[], hf.drop, .nil, fun w' h => ?_⟩
      cases h
      exact .leaf x h1 h2
    · intro q w hq _ ih a w1 e σ hf
      have : Fits ps rank init (rhs eps q ++ σ) := by
        unfold rhs
        split_ifs
        · exact hf.drop
        · exact hf.expand hr hq
      obtain ⟨st', h1, h2, h3⟩ := ih a w1 e σ this
      exact ⟨st', h1, h2, fun w' h => .node q _ hq (h3 w' h)⟩
    · intro a w1 e
      simp at e
    · intro x xs u v hx hxs ih1 ih2 a w1 e σ hf
      cases u with
      | nil =>
        obtain ⟨st', h1, h2, h3⟩ := ih2 a w1 (by simpa using e) σ hf.drop
        exact ⟨st', h1, h2, fun w' h => .cons x xs [] _ hx (h3 w' h)⟩
      | cons u0 u =>
        simp only [List.cons_append, List.cons.injEq] at e
        obtain ⟨rfl, rfl⟩ := e
        obtain ⟨st', h1, h2, h3⟩ := ih1 u0 u rfl (xs ++ σ) (by simpa using hf)
        refine ⟨st' ++ xs, by simpa using h1, h2.append hxs, fun w' h => ?_⟩
        obtain ⟨a1, a2, rfl, h4, h5⟩ := h.split
        exact .cons x xs (u0 :: a1) a2 (h3 _ h4) h5
  obtain ⟨st', h1, h2, h3⟩ := key h a w rfl [] (by simpa using hp)
  exact ⟨st', by simpa using h1, h2, h3⟩

end Verif.RecursesAtEnd
