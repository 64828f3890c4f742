import Verif.Spec.Wrap
import Verif.Proof.Derivation
import Verif.Proof.ParseTree

/-! # Derivations of the rewritten grammar -/

set_option linter.unusedSectionVars false

namespace Verif.Spec

open Wrapped

variable {L T : Type} [DecidableEq T] {eps init : T} {ps : List (Production T)}

/-- What a symbol of the rewritten grammar stands for. -/
def meaning (init : T) (f : Production T → List T) : Wrapped T → List T
  | old x => [x]
  | start => [init]
  | stop => []
  | alt p => f p
  | copy x => [x]

/-- What a form of the rewritten grammar stands for. -/
def meanings (init : T) (f : Production T → List T) (u : List (Wrapped T)) : List T :=
  u.flatMap (meaning init f)

theorem meanings_append {f : Production T → List T} (u v : List (Wrapped T)) :
    meanings init f (u ++ v) = meanings init f u ++ meanings init f v := by simp [meanings]

theorem meanings_cons {f : Production T → List T} (x : Wrapped T) (v : List (Wrapped T)) :
    meanings init f (x :: v) = meaning init f x ++ meanings init f v := by simp [meanings]

theorem meanings_alternate {f : Production T → List T} (b : Bool) (xs : List T) :
    meanings init f (alternate b xs) = xs := by
  induction xs generalizing b with
  | nil => rfl
  | cons x xs ih =>
    rw [alternate, meanings_cons, ih]
    cases b <;> rfl

theorem alternate_eq_eps {xs : List T} : alternate false xs = [old eps] ↔ xs = [eps] := by
  cases xs with
  | nil => simp [alternate]
  | cons x xs =>
    cases xs with
    | nil => simp [alternate]
    | cons y ys => simp [alternate]

theorem mem_wrapped {q : Production (Wrapped T)} : q ∈ wrapped eps init ps ↔
    q = ⟨start, [old init, stop]⟩ ∨ (∃ p ∈ ps, q = ⟨old p.input, [alt p]⟩) ∨
    (∃ p ∈ ps, q = ⟨alt p, alternate false p.output⟩) ∨
    ∃ x, x ≠ eps ∧ (∃ p ∈ ps, x ∈ p.output) ∧ q = ⟨copy x, [old x]⟩ := by
  simp only [wrapped, List.mem_cons, List.mem_append, List.mem_map, List.mem_dedup, List.mem_filter,
    List.mem_flatMap, decide_eq_true_eq]
  constructor
  · rintro (h | ⟨p, hp, rfl⟩ | ⟨p, hp, rfl⟩ | ⟨x, ⟨⟨p, hp, hx⟩, hne⟩, rfl⟩)
    · exact .inl h
    · exact .inr (.inl ⟨p, hp, rfl⟩)
    · exact .inr (.inr (.inl ⟨p, hp, rfl⟩))
    · exact .inr (.inr (.inr ⟨x, hne, ⟨p, hp, hx⟩, rfl⟩))
  · rintro (h | ⟨p, hp, rfl⟩ | ⟨p, hp, rfl⟩ | ⟨x, hne, ⟨p, hp, hx⟩, rfl⟩)
    · exact .inl h
    · exact .inr (.inl ⟨p, hp, rfl⟩)
    · exact .inr (.inr (.inl ⟨p, hp, rfl⟩))
    · exact .inr (.inr (.inr ⟨x, ⟨⟨p, hp, hx⟩, hne⟩, rfl⟩))

theorem wrapped_old {x : T} : IsNonTerminal (wrapped eps init ps) (old x) ↔ IsNonTerminal ps x := by
  constructor
  · rintro ⟨q, hq, hx⟩
    rcases mem_wrapped.1 hq with rfl | ⟨p, hp, rfl⟩ | ⟨p, hp, rfl⟩ | ⟨y, hne, hy, rfl⟩ <;> simp at hx
    exact ⟨p, hp, hx⟩
  · rintro ⟨p, hp, rfl⟩
    exact ⟨_, mem_wrapped.2 (.inr (.inl ⟨p, hp, rfl⟩)), rfl⟩

theorem wrapped_stop : ¬ IsNonTerminal (wrapped eps init ps) stop := by
  rintro ⟨q, hq, hx⟩
  rcases mem_wrapped.1 hq with rfl | ⟨p, hp, rfl⟩ | ⟨p, hp, rfl⟩ | ⟨y, hne, hy, rfl⟩ <;> simp at hx

theorem wrapped_alt {p : Production T} : IsNonTerminal (wrapped eps init ps) (alt p) ↔ p ∈ ps := by
  constructor
  · rintro ⟨q, hq, hx⟩
    rcases mem_wrapped.1 hq with rfl | ⟨p, hp, rfl⟩ | ⟨p, hp, rfl⟩ | ⟨y, hne, hy, rfl⟩ <;> simp at hx
    exact hx ▸ hp
  · intro hp
    exact ⟨_, mem_wrapped.2 (.inr (.inr (.inl ⟨p, hp, rfl⟩))), rfl⟩

theorem wrapped_copy {x : T} : IsNonTerminal (wrapped eps init ps) (copy x) ↔
    x ≠ eps ∧ ∃ p ∈ ps, x ∈ p.output := by
  constructor
  · rintro ⟨q, hq, hx⟩
    rcases mem_wrapped.1 hq with rfl | ⟨p, hp, rfl⟩ | ⟨p, hp, rfl⟩ | ⟨y, hne, hy, rfl⟩ <;> simp at hx
    exact hx ▸ ⟨hne, hy⟩
  · rintro ⟨hne, hx⟩
    exact ⟨_, mem_wrapped.2 (.inr (.inr (.inr ⟨x, hne, hx, rfl⟩))), rfl⟩

/-- The right-hand sides of the rewritten grammar. -/
theorem rhs_alt {f : Production T → List T} (p : Production T) :
    meanings init f (rhs (old eps) ⟨alt p, alternate false p.output⟩) = rhs eps p := by
  unfold rhs
  simp only
  by_cases h : p.output = [eps]
  · rw [if_pos (alternate_eq_eps.2 h), if_pos h]; rfl
  · rw [if_neg (fun h' => h (alternate_eq_eps.1 h')), if_neg h, meanings_alternate]

theorem rhs_copy {x : T} (hne : x ≠ eps) : rhs (old eps) ⟨copy x, [old x]⟩ = [old x] := by
  unfold rhs; simp [hne]

theorem rhs_old (A : T) (p : Production T) : rhs (old eps) ⟨old A, [alt p]⟩ = [alt p] := by
  unfold rhs; simp

theorem rhs_start : rhs (old eps) ⟨start, [old init, stop]⟩ = [old init, stop] := by
  unfold rhs; simp

theorem meanings_production {q : Production (Wrapped T)} (hq : q ∈ wrapped eps init ps) :
    (Derives eps ps (meanings init (rhs eps) [q.input]) (meanings init (rhs eps) (rhs (old eps) q))) ∧
    (Derives eps ps (meanings init (fun p => [p.input]) [q.input])
      (meanings init (fun p => [p.input]) (rhs (old eps) q))) := by
  rcases mem_wrapped.1 hq with rfl | ⟨p, hp, rfl⟩ | ⟨p, hp, rfl⟩ | ⟨y, hne, hy, rfl⟩
  · rw [rhs_start]; exact ⟨.refl _, .refl _⟩
  · rw [rhs_old]
    simp only [meanings, List.flatMap_cons, List.flatMap_nil, meaning, List.append_nil]
    exact ⟨Derives.of_production hp, .refl _⟩
  · rw [rhs_alt, rhs_alt]
    simp only [meanings, List.flatMap_cons, List.flatMap_nil, meaning, List.append_nil]
    exact ⟨.refl _, Derives.of_production hp⟩
  · rw [rhs_copy hne]; exact ⟨.refl _, .refl _⟩

/-- Derivations of the rewritten grammar are derivations of the grammar, whether the non-terminal of a
production stands for its output or its input. -/
theorem meanings_derives {u v : List (Wrapped T)} (h : Derives (old eps) (wrapped eps init ps) u v) :
    Derives eps ps (meanings init (rhs eps) u) (meanings init (rhs eps) v) ∧
    Derives eps ps (meanings init (fun p => [p.input]) u) (meanings init (fun p => [p.input]) v) := by
  induction h with
  | refl a => exact ⟨.refl _, .refl _⟩
  | step hs _ ih =>
    obtain ⟨u, v, q, hq⟩ := hs
    obtain ⟨h1, h2⟩ := meanings_production hq
    simp only [meanings_append, meanings_cons, List.append_assoc] at ih ⊢
    refine ⟨?_, ?_⟩
    · refine Derives.trans ?_ ih.1
      refine Derives.append (.refl _) (Derives.append ?_ (.refl _))
      simpa [meanings] using h1
    · refine Derives.trans ?_ ih.2
      refine Derives.append (.refl _) (Derives.append ?_ (.refl _))
      simpa [meanings] using h2

/-- A symbol of an output is derived from its copy. -/
theorem derives_alternate (b : Bool) {xs : List T} (hx : ∀ x ∈ xs, x ≠ eps ∧ ∃ p ∈ ps, x ∈ p.output) :
    Derives (old eps) (wrapped eps init ps) (alternate b xs) (xs.map old) := by
  induction xs generalizing b with
  | nil => exact .refl _
  | cons x xs ih =>
    have h1 := ih (!b) (fun x hx' => hx x (List.mem_cons_of_mem _ hx'))
    rw [alternate, List.map_cons]
    refine Derives.append (a := [_]) (a' := [_]) ?_ h1
    cases b with
    | false => exact .refl _
    | true =>
      obtain ⟨hne, ho⟩ := hx x List.mem_cons_self
      have := Derives.of_production (eps := old eps) (ps := wrapped eps init ps)
        (mem_wrapped.2 (.inr (.inr (.inr ⟨x, hne, ho, rfl⟩))))
      rw [rhs_copy hne] at this
      exact this

theorem rhs_ne_eps (hw : WellFormed eps ps) {p : Production T} (hp : p ∈ ps) {x : T} (hx : x ∈ rhs eps p) :
    x ≠ eps ∧ ∃ p ∈ ps, x ∈ p.output := by
  unfold rhs at hx
  split at hx
  · simp at hx
  · rename_i hne
    refine ⟨?_, p, hp, hx⟩
    rintro rfl
    have hl := (hw p hp).2.2 hx
    obtain ⟨y, hy⟩ := List.length_eq_one_iff.1 hl
    rw [hy] at hx hne
    simp at hx
    exact hne (by rw [hx])

/-- Derivations of the grammar are derivations of the rewritten grammar. -/
theorem wrap_derives (hw : WellFormed eps ps) {u v : List T} (h : Derives eps ps u v) :
    Derives (old eps) (wrapped eps init ps) (u.map old) (v.map old) := by
  induction h with
  | refl a => exact .refl _
  | step hs _ ih =>
    obtain ⟨u, v, p, hp⟩ := hs
    refine Derives.trans ?_ ih
    simp only [List.map_append, List.map_cons, List.append_assoc]
    refine Derives.append (.refl _) (Derives.append (a := [_]) ?_ (.refl _))
    have h1 := Derives.of_production (eps := old eps) (ps := wrapped eps init ps)
      (mem_wrapped.2 (.inr (.inl ⟨p, hp, rfl⟩)))
    rw [rhs_old] at h1
    have h2 := Derives.of_production (eps := old eps) (ps := wrapped eps init ps)
      (mem_wrapped.2 (.inr (.inr (.inl ⟨p, hp, rfl⟩))))
    refine h1.trans (h2.trans ?_)
    by_cases he : p.output = [eps]
    · have e1 : rhs eps p = [] := by simp [rhs, he]
      have e2 : rhs (old eps) ⟨alt p, alternate false p.output⟩ = [] := by
        simp [rhs, he, alternate]
      rw [e1, e2]; exact .refl _
    · have e1 : rhs eps p = p.output := by simp [rhs, he]
      have e2 : rhs (old eps) ⟨alt p, alternate false p.output⟩ = alternate false p.output := by
        simp [rhs, alternate_eq_eps, he]
      rw [e2]
      rw [e1]
      exact derives_alternate false (fun x hx => rhs_ne_eps hw hp (by rw [e1]; exact hx))

/-! ## What forms consist of -/

/-- A property of all outputs is kept in derivations. -/
theorem Derives.all {T : Type} [DecidableEq T] {eps : T} {ps : List (Production T)} {P : T → Prop}
    (hP : ∀ p ∈ ps, P p.input → ∀ x ∈ rhs eps p, P x) {u v : List T} (h : Derives eps ps u v)
    (hu : ∀ x ∈ u, P x) : ∀ x ∈ v, P x := by
  induction h with
  | refl => exact hu
  | step hs _ ih =>
    apply ih
    obtain ⟨u, v, p, hp⟩ := hs
    intro x hx
    simp only [List.mem_append] at hx
    rcases hx with (hx | hx) | hx
    · exact hu x (by simp [hx])
    · exact hP p hp (hu _ (by simp)) x hx
    · exact hu x (by simp [hx])

/-- A symbol derived from another one occurs in an output. -/
theorem Derives.occurs {T : Type} [DecidableEq T] {eps : T} {ps : List (Production T)} (hw : WellFormed eps ps)
    {n x : T} {v : List T} (h : Derives eps ps [n] v) (hx : x ∈ v) (hne : x ≠ n) :
    x ≠ eps ∧ ∃ p ∈ ps, x ∈ p.output := by
  have := Derives.all (P := fun x => x = n ∨ (x ≠ eps ∧ ∃ p ∈ ps, x ∈ p.output))
    (fun p hp _ x hx => .inr (rhs_ne_eps hw hp hx)) h (by simp) x hx
  exact this.resolve_left hne

theorem mem_alternate {b : Bool} {xs : List T} {y : Wrapped T} (hy : y ∈ alternate b xs) :
    ∃ x ∈ xs, y = old x ∨ (y = copy x ∧ (b = true ∨ 1 < xs.length)) := by
  induction xs generalizing b with
  | nil => simp [alternate] at hy
  | cons x xs ih =>
    rw [alternate, List.mem_cons] at hy
    rcases hy with rfl | hy
    · refine ⟨x, List.mem_cons_self, ?_⟩
      cases b <;> simp
    · obtain ⟨x', hx', h⟩ := ih hy
      refine ⟨x', List.mem_cons_of_mem _ hx', h.imp id fun h => ⟨h.1, .inr ?_⟩⟩
      have := List.length_pos_of_mem hx'
      simp only [List.length_cons]
      omega

theorem length_alternate (b : Bool) (xs : List T) : (alternate b xs).length = xs.length := by
  induction xs generalizing b with
  | nil => rfl
  | cons x xs ih => simp [alternate, ih]

/-- A copy in an output is the copy of a symbol other than `eps`. -/
theorem copy_mem (hw : WellFormed eps ps) {p : Production T} (hp : p ∈ ps) {x : T}
    (hx : copy x ∈ alternate false p.output) : x ≠ eps ∧ ∃ p ∈ ps, x ∈ p.output := by
  obtain ⟨y, hy, h⟩ := mem_alternate hx
  rcases h with h | ⟨h, hl⟩
  · cases h
  · cases h
    refine ⟨?_, p, hp, hy⟩
    rintro rfl
    have := (hw p hp).2.2 hy
    simp at hl
    omega

theorem wellFormed_wrapped (hw : WellFormed eps ps) (hi : IsNonTerminal ps init) :
    WellFormed (old eps) (wrapped eps init ps) := by
  intro q hq
  rcases mem_wrapped.1 hq with rfl | ⟨p, hp, rfl⟩ | ⟨p, hp, rfl⟩ | ⟨y, hne, hy, rfl⟩
  · obtain ⟨p, hp, rfl⟩ := hi
    simp [(hw p hp).1.symm]
  · refine ⟨?_, by simp, by simp⟩
    simp only [ne_eq, old.injEq]
    exact (hw p hp).1
  · refine ⟨by simp, ?_, ?_⟩
    · intro h
      have := length_alternate false p.output
      simp only at h
      rw [h] at this
      exact (hw p hp).2.1 (List.length_eq_zero_iff.1 this.symm)
    · intro h
      simp only [length_alternate]
      obtain ⟨x, hx, h⟩ := mem_alternate h
      rcases h with h | ⟨h, -⟩
      · cases h
        exact (hw p hp).2.2 hx
      · cases h
  · simp

/-- Neither the new initial symbol nor the end marker is derived from anything but the former. -/
theorem no_new {u v : List (Wrapped T)} (h : Derives (old eps) (wrapped eps init ps) u v)
    (hu : ∀ x ∈ u, x ≠ start ∧ x ≠ stop) : ∀ x ∈ v, x ≠ start ∧ x ≠ stop := by
  refine Derives.all ?_ h hu
  intro q hq hin x hx
  have hx' : x ∈ q.output := by
    unfold rhs at hx
    split at hx
    · simp at hx
    · exact hx
  rcases mem_wrapped.1 hq with rfl | ⟨p, hp, rfl⟩ | ⟨p, hp, rfl⟩ | ⟨y, hne, hy, rfl⟩
  · simp at hin
  · simp at hx'; subst hx'; simp
  · obtain ⟨y, hy, h⟩ := mem_alternate hx'
    rcases h with rfl | ⟨rfl, -⟩ <;> simp
  · simp at hx'; subst hx'; simp

theorem no_start {u v : List (Wrapped T)} (h : Derives (old eps) (wrapped eps init ps) u v)
    (hu : start ∉ u) : start ∉ v := by
  intro hv
  refine Derives.all (P := fun x => x ≠ start) ?_ h (fun x hx e => hu (e ▸ hx)) _ hv rfl
  intro q hq hin x hx
  have hx' : x ∈ q.output := by
    unfold rhs at hx
    split at hx
    · simp at hx
    · exact hx
  rcases mem_wrapped.1 hq with rfl | ⟨p, hp, rfl⟩ | ⟨p, hp, rfl⟩ | ⟨y, hne, hy, rfl⟩
  · simp at hin
  · simp at hx'; subst hx'; simp
  · obtain ⟨y, hy, h⟩ := mem_alternate hx'
    rcases h with rfl | ⟨rfl, -⟩ <;> simp
  · simp at hx'; subst hx'; simp

/-- The rewritten grammar is not left-recursive if the grammar is not. -/
theorem wrapped_notLeftRecursive (hnlr : NotLeftRecursive eps ps) :
    NotLeftRecursive (old eps) (wrapped eps init ps) := by
  rintro X v ⟨b, hs, hd⟩
  obtain ⟨q, hq, rfl, rfl⟩ := Step.single hs
  rcases mem_wrapped.1 hq with rfl | ⟨p, hp, rfl⟩ | ⟨p, hp, rfl⟩ | ⟨y, hne, hy, rfl⟩
  · rw [rhs_start] at hd
    exact no_start hd (by simp) (by simp)
  · rw [rhs_old] at hd
    have h1 := (meanings_derives hd).1
    rw [meanings_cons, meanings_cons] at h1
    simp only [meaning, meanings, List.flatMap_nil, List.append_nil] at h1
    exact hnlr p.input _ ⟨_, Step.of_production hp, h1⟩
  · have h1 := (meanings_derives hd).2
    rw [rhs_alt, meanings_cons] at h1
    exact hnlr p.input _ ⟨_, Step.of_production hp, h1⟩
  · rw [rhs_copy hne] at hd
    generalize hu : [old y] = u at hd
    generalize hv : copy y :: v = w at hd
    cases hd with
    | refl => rw [← hu] at hv; simp at hv
    | step hs hd =>
      subst hu hv
      obtain ⟨q, hq', h1, rfl⟩ := Step.single hs
      rcases mem_wrapped.1 hq' with rfl | ⟨p, hp, rfl⟩ | ⟨p, hp, rfl⟩ | ⟨z, _, _, rfl⟩ <;> simp at h1
      subst h1
      rw [rhs_old] at hd
      have h1 := (meanings_derives hd).1
      rw [meanings_cons, meanings_cons] at h1
      simp only [meaning, meanings, List.flatMap_nil, List.append_nil] at h1
      exact hnlr p.input _ ⟨_, Step.of_production hp, h1⟩

theorem alternate_no_repeat (b : Bool) (xs : List T) (u v : List (Wrapped T)) (x : Wrapped T) :
    alternate b xs ≠ u ++ x :: x :: v := by
  induction xs generalizing b u with
  | nil => simp [alternate]
  | cons y ys ih =>
    cases u with
    | nil =>
      intro h
      rw [alternate, List.nil_append, List.cons.injEq] at h
      cases ys with
      | nil => simp [alternate] at h
      | cons z zs =>
        rw [alternate, List.cons.injEq] at h
        have h1 := h.1
        rw [← h.2.1] at h1
        cases b <;> simp at h1
    | cons a u =>
      intro h
      rw [alternate, List.cons_append, List.cons.injEq] at h
      exact ih _ _ h.2

/-- No output of the rewritten grammar has the same symbol twice in a row. -/
theorem wrapped_noAdjacentRepeat : NoAdjacentRepeat (wrapped eps init ps) := by
  intro q hq u x v h
  exfalso
  rcases mem_wrapped.1 hq with rfl | ⟨p, hp, rfl⟩ | ⟨p, hp, rfl⟩ | ⟨y, hne, hy, rfl⟩
  · have hl := congrArg List.length h
    simp at hl
    obtain ⟨rfl, rfl⟩ : u = [] ∧ v = [] := by
      constructor
      · exact List.length_eq_zero_iff.1 (by omega)
      · exact List.length_eq_zero_iff.1 (by omega)
    simp at h
    rw [← h.1] at h
    simp at h
  · have hl := congrArg List.length h
    simp at hl
    omega
  · exact alternate_no_repeat _ _ _ _ _ h
  · have hl := congrArg List.length h
    simp at hl
    omega

theorem wrapped_endMarked : EndMarked (old eps) start stop (wrapped eps init ps) := by
  have hout : ∀ q ∈ wrapped eps init ps, q.input ≠ start → start ∉ q.output ∧ stop ∉ q.output := by
    intro q hq hin
    rcases mem_wrapped.1 hq with rfl | ⟨p, hp, rfl⟩ | ⟨p, hp, rfl⟩ | ⟨y, hne, hy, rfl⟩
    · simp at hin
    · simp
    · constructor <;> intro h <;> obtain ⟨y, hy, h⟩ := mem_alternate h <;> simp at h
    · simp
  refine ⟨by simp, wrapped_stop, ?_, ?_, fun q hq hin => (hout q hq hin).2⟩
  · intro q hq
    by_cases hin : q.input = start
    · rcases mem_wrapped.1 hq with rfl | ⟨p, hp, rfl⟩ | ⟨p, hp, rfl⟩ | ⟨y, hne, hy, rfl⟩ <;> simp at hin
      simp
    · exact (hout q hq hin).1
  · intro q hq hin
    rcases mem_wrapped.1 hq with rfl | ⟨p, hp, rfl⟩ | ⟨p, hp, rfl⟩ | ⟨y, hne, hy, rfl⟩ <;> simp at hin
    exact ⟨[old init], rfl, by simp⟩

/-- The terminals of the rewritten grammar. -/
theorem wrapped_terminal (hw : WellFormed eps ps) {a : Wrapped T}
    (ha : IsTerminal (wrapped eps init ps) a) : a = stop ∨ ∃ x, a = old x ∧ ¬ IsNonTerminal ps x := by
  obtain ⟨⟨q, hq, hx⟩, hnt⟩ := ha
  cases a with
  | old x => exact .inr ⟨x, rfl, fun h => hnt (wrapped_old.2 h)⟩
  | stop => exact .inl rfl
  | start => exact absurd ⟨_, mem_wrapped.2 (.inl rfl), rfl⟩ hnt
  | alt p =>
    exfalso
    apply hnt
    rw [wrapped_alt]
    rcases mem_wrapped.1 hq with rfl | ⟨p', hp, rfl⟩ | ⟨p', hp, rfl⟩ | ⟨y, hne, hy, rfl⟩
    · simp at hx
    · simp at hx; exact hx ▸ hp
    · obtain ⟨y, hy, h⟩ := mem_alternate hx
      simp at h
    · simp at hx
  | copy x =>
    exfalso
    apply hnt
    rw [wrapped_copy]
    rcases mem_wrapped.1 hq with rfl | ⟨p', hp, rfl⟩ | ⟨p', hp, rfl⟩ | ⟨y, hne, hy, rfl⟩
    · simp at hx
    · simp at hx
    · exact copy_mem hw hp hx
    · simp at hx

/-- What can follow the non-terminal of a production can follow the input of the production. -/
theorem wrapped_follow (hw : WellFormed eps ps) {p : Production T} {a : T}
    (h : CanFollow (old eps) (wrapped eps init ps) (alt p) (old a)) :
    CanFollow eps ps p.input a := by
  obtain ⟨ht, hne, n, u, v, hn, hd⟩ := h
  have hnt : ¬ IsNonTerminal ps a := fun h => ht.2 (wrapped_old.2 h)
  have h1 := (meanings_derives hd).2
  obtain ⟨n0, hn0⟩ : ∃ n0, meanings init (fun p => [p.input]) [n] = [n0] := by
    cases n with
    | stop => exact absurd hn wrapped_stop
    | old x => exact ⟨x, rfl⟩
    | start => exact ⟨init, rfl⟩
    | alt p => exact ⟨p.input, rfl⟩
    | copy x => exact ⟨x, rfl⟩
  rw [hn0, meanings_append, meanings_cons, meanings_cons] at h1
  simp only [meaning, List.singleton_append] at h1
  have hn0' : IsNonTerminal ps n0 := by
    by_contra hc
    have := congrArg List.length (h1.terminal_eq hc)
    simp at this
    omega
  have hocc := h1.occurs hw (x := a) (by simp) (by rintro rfl; exact hnt hn0')
  exact ⟨⟨hocc.2, hnt⟩, hocc.1, n0, _, _, hn0', h1⟩

/-- Tokens without the end marker. -/
def unwrapTokens : List (Token L (Wrapped T)) → List (Token L T)
  | [] => []
  | ⟨l, old x⟩ :: w => ⟨l, x⟩ :: unwrapTokens w
  | _ :: w => unwrapTokens w

theorem unwrapTokens_append (w w' : List (Token L (Wrapped T))) :
    unwrapTokens (w ++ w') = unwrapTokens w ++ unwrapTokens w' := by
  induction w with
  | nil => rfl
  | cons t w ih =>
    obtain ⟨l, x⟩ := t
    cases x <;> simp [unwrapTokens, ih]

theorem unwrapTokens_wrap (w : List (Token L T)) : unwrapTokens (wrapTokens w) = w := by
  unfold wrapTokens
  rw [unwrapTokens_append]
  have : unwrapTokens [(⟨none, stop⟩ : Token L (Wrapped T))] = [] := rfl
  rw [this, List.append_nil]
  induction w with
  | nil => rfl
  | cons t w ih => simp only [List.map_cons, unwrapTokens, ih]

/-- The symbols that occur in the rewritten grammar. -/
def Occurring (eps : T) (ps : List (Production T)) : Wrapped T → Prop
  | alt p => p ∈ ps
  | copy x => x ≠ eps ∧ ∃ p ∈ ps, x ∈ p.output
  | _ => True

/-- Without the new nodes, a parse tree of the rewritten grammar consists of parse trees of the grammar. -/
theorem unwrap_tree (hw : WellFormed eps ps) {X : Wrapped T} {w : List (Token L (Wrapped T))}
    {n : Node L (Wrapped T)} (h : IsTree (old eps) (wrapped eps init ps) X w n) (hX : Occurring eps ps X) :
    IsForest eps ps (meaning init (·.output) X) (unwrapTokens w) (unwrap n) := by
  refine IsTree.rec (eps := old eps) (ps := wrapped eps init ps)
    (motive_1 := fun X w n _ => Occurring eps ps X →
      IsForest eps ps (meaning init (·.output) X) (unwrapTokens w) (unwrap n))
    (motive_2 := fun Xs w ns _ => (∀ X ∈ Xs, Occurring eps ps X) →
      IsForest eps ps (meanings init (·.output) Xs) (unwrapTokens w) (unwrapList ns))
    ?_ ?_ ?_ ?_ ?_ h hX
  · rintro ⟨l, X⟩ hnt hne hX
    cases X with
    | old x =>
      refine IsForest.single ?_
      exact IsTree.leaf ⟨l, x⟩ (fun h => hnt (wrapped_old.2 h)) (fun h => hne (by simpa using h))
    | stop => exact .nil
    | start => exact absurd ⟨_, mem_wrapped.2 (.inl rfl), rfl⟩ hnt
    | alt p => exact absurd (wrapped_alt.2 hX) hnt
    | copy x => exact absurd (wrapped_copy.2 hX) hnt
  · intro _
    exact IsForest.single IsTree.eps
  · intro q w ns hq hf ih hX
    rcases mem_wrapped.1 hq with rfl | ⟨p, hp, rfl⟩ | ⟨p, hp, rfl⟩ | ⟨y, hne, hy, rfl⟩
    · have := ih (by simp [Occurring])
      simpa [meanings, meaning, unwrap] using this
    · have := ih (by simpa [Occurring] using hp)
      refine IsForest.single ?_
      refine IsTree.node p _ _ hp ?_
      simpa [meanings, meaning] using this
    · have := ih (by
        intro X hX
        cases X with
        | copy x => exact copy_mem hw hp hX
        | alt p' =>
          obtain ⟨y, hy, h⟩ := mem_alternate hX
          simp at h
        | _ => trivial)
      rw [meanings_alternate] at this
      exact this
    · have := ih (by simp [Occurring])
      simpa [meanings, meaning, unwrap] using this
  · intro _
    exact .nil
  · intro X Xs w w' n ns hn hns ih1 ih2 hX
    rw [meanings_cons, unwrapTokens_append]
    exact IsForest.append (ih1 (hX X List.mem_cons_self))
      (ih2 (fun X' hX' => hX X' (List.mem_cons_of_mem _ hX')))

/-- Sentences of the rewritten grammar. -/
theorem wrapped_sentence (hw : WellFormed eps ps) (hi : IsNonTerminal ps init) (w : List T) :
    Sentence (old eps) start (wrapped eps init ps) (w.map old ++ [stop]) ↔ Sentence eps init ps w := by
  constructor
  · rintro ⟨hd, ht⟩
    have h1 := (meanings_derives hd).1
    have e : meanings init (rhs eps) (w.map old ++ [stop]) = w := by
      rw [meanings_append]
      simp [meanings, meaning, List.flatMap_map]
    rw [e] at h1
    simp only [meanings, meaning, List.flatMap_cons, List.flatMap_nil, List.append_nil] at h1
    refine ⟨h1, fun a ha => ?_⟩
    have h2 := ht (old a) (by simp [ha])
    have hnt : ¬ IsNonTerminal ps a := fun h => h2.1.2 (wrapped_old.2 h)
    have hocc := h1.occurs hw ha (by rintro rfl; exact hnt hi)
    exact ⟨⟨hocc.2, hnt⟩, hocc.1⟩
  · rintro ⟨hd, ht⟩
    refine ⟨?_, ?_⟩
    · have h1 := Derives.of_production (eps := old eps) (ps := wrapped eps init ps) (mem_wrapped.2 (.inl rfl))
      rw [rhs_start] at h1
      exact h1.trans (Derives.append (a := [old init]) (b := [stop]) (wrap_derives hw hd) (.refl _))
    · intro a ha
      simp only [List.mem_append, List.mem_map, List.mem_singleton] at ha
      rcases ha with ⟨x, hx, rfl⟩ | rfl
      · obtain ⟨⟨⟨p, hp, hxo⟩, hnt⟩, hne⟩ := ht x hx
        refine ⟨⟨⟨_, mem_wrapped.2 (.inr (.inr (.inr ⟨x, hne, ⟨p, hp, hxo⟩, rfl⟩))), by simp⟩,
          fun h => hnt (wrapped_old.1 h)⟩, by simpa using hne⟩
      · exact ⟨⟨⟨_, mem_wrapped.2 (.inl rfl), by simp⟩, wrapped_stop⟩, by simp⟩

end Verif.Spec
