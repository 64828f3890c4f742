import Verif.Proof.Unasked
import Verif.Spec.Replay

/-! # Playing back the answers of a solver -/

set_option linter.unusedSectionVars false

namespace Verif.Parser.Recovery

open Spec Spec.Recovery

variable {σ τ L T : Type} {eps : T} {ps : List (Production T)} {cand : T → T → List (List T)}
  {tokens : List (Token L T)} {sv : Solver σ L T}

theorem answer_record {pos : Nat} {fps : List (FailedProduction L T)}
    {s s' : σ × List (RecordedCall L T)} {o : Option (FixResult L T)}
    (h : answer (some (recordCalls sv)) tokens pos true fps s = .ok (o, s')) :
    s'.2 = s.2 ++ [⟨pos, fps, o⟩] := by
  obtain ⟨s, log⟩ := s
  match fps, h with
  | [fp], h =>
    simp only [answer, recordCalls] at h
    split at h <;> simp only [Out.ok.injEq, Prod.mk.injEq, reduceCtorEq] at h
    obtain ⟨rfl, rfl⟩ := h
    rfl
  | [], h =>
    simp only [answer, recordCalls] at h
    split at h <;> simp only [Out.ok.injEq, Prod.mk.injEq, reduceCtorEq] at h
    obtain ⟨rfl, rfl⟩ := h
    rfl
  | _ :: _ :: _, h =>
    simp only [answer, recordCalls] at h
    split at h <;> simp only [Out.ok.injEq, Prod.mk.injEq, reduceCtorEq] at h
    obtain ⟨rfl, rfl⟩ := h
    rfl

/-- The search did not panic, and `new` was recorded during it. -/
def Steps {α β : Type} (s : σ × List (RecordedCall L T)) :
    Outcome (σ × List (RecordedCall L T)) α β → List (RecordedCall L T) → Prop
  | .found _ s', new => s'.2 = s.2 ++ new
  | .failed _ s', new => s'.2 = s.2 ++ new
  | .panicked, _ => False

/-- The search did not panic. -/
def Calm {α β : Type} : Outcome σ α β → Prop
  | .panicked => False
  | _ => True

theorem calm_cons {a : Part L T} {r : SeqOutcome σ L T} : Calm (r.cons a) ↔ Calm r := by
  match r with
  | .found _ _ => exact Iff.rfl
  | .failed _ _ => exact Iff.rfl
  | .panicked => exact Iff.rfl

theorem calm_consFailed {a : FailedProduction L T}
    {r : Outcome σ (Derived L T) (List (FailedProduction L T))} : Calm (consFailed a r) ↔ Calm r := by
  match r with
  | .found _ _ => exact Iff.rfl
  | .failed _ _ => exact Iff.rfl
  | .panicked => exact Iff.rfl

theorem steps_cons {s : σ × List (RecordedCall L T)} {a : Part L T} {new : List (RecordedCall L T)}
    {r : SeqOutcome (σ × List (RecordedCall L T)) L T} : Steps s (r.cons a) new ↔ Steps s r new := by
  match r with
  | .found _ _ => exact Iff.rfl
  | .failed _ _ => exact Iff.rfl
  | .panicked => exact Iff.rfl

theorem steps_consFailed {s : σ × List (RecordedCall L T)} {a : FailedProduction L T}
    {new : List (RecordedCall L T)}
    {r : Outcome (σ × List (RecordedCall L T)) (Derived L T) (List (FailedProduction L T))} :
    Steps s (consFailed a r) new ↔ Steps s r new := by
  match r with
  | .found _ _ => exact Iff.rfl
  | .failed _ _ => exact Iff.rfl
  | .panicked => exact Iff.rfl

theorem Steps.trans {α β : Type} {s s1 : σ × List (RecordedCall L T)} {n1 n2 : List (RecordedCall L T)}
    {r : Outcome (σ × List (RecordedCall L T)) α β} (h1 : s1.2 = s.2 ++ n1) (h2 : Steps s1 r n2) :
    Steps s r (n1 ++ n2) := by
  match r, h2 with
  | .found _ _, h2 => exact (show _ = _ from h2).trans (by rw [h1, List.append_assoc])
  | .failed _ _, h2 => exact (show _ = _ from h2).trans (by rw [h1, List.append_assoc])

/-- What a solver that plays back does: `St rem past` is its state with `rem` to come and `past` done. -/
def PlaysBack (solver' : Solver τ L T) (tokens : List (Token L T))
    (St : List (RecordedCall L T) → List (RecordedCall L T) → τ) : Prop :=
  ∀ pos fps o rem past, answer (some solver') tokens pos true fps (St (⟨pos, fps, o⟩ :: rem) past) =
    .ok (o, St rem (past ++ [⟨pos, fps, o⟩]))

theorem choice_replay {solver' : Solver τ L T}
    {St : List (RecordedCall L T) → List (RecordedCall L T) → τ} (hS : PlaysBack solver' tokens St) {x : T}
    {pos : Nat} {outs : List (List T)} {sg : Bool} {s : σ × List (RecordedCall L T)}
    {r : Outcome (σ × List (RecordedCall L T)) (Derived L T) (FailedSymbol L T)}
    (h : Choice eps ps cand (some (recordCalls sv)) tokens x pos outs sg s r) (hr : Calm r) :
    ∃ new, Steps s r new ∧ ∀ tail past, Choice eps ps cand (some solver') tokens x pos outs sg
      (St (new ++ tail) past) (setState (St tail (past ++ new)) r) := by
  have hans : ∀ {pos sg fps s o s'}, answer (some (recordCalls sv)) tokens pos sg fps s = .ok (o, s') →
      ∃ new, s'.2 = s.2 ++ new ∧ ∀ tail past, answer (some solver') tokens pos sg fps
        (St (new ++ tail) past) = .ok (o, St tail (past ++ new)) := by
    intro pos sg fps s o s' e
    cases sg with
    | false =>
      rw [answer_off] at e
      cases e
      exact ⟨[], by simp, fun tail past => by rw [answer_off]; simp⟩
    | true => exact ⟨[⟨pos, fps, o⟩], answer_record e, fun tail past => hS _ _ _ _ _⟩
  revert hr
  refine (Choice.rec (eps := eps) (ps := ps) (cand := cand)
    (solver := some (recordCalls sv)) (tokens := tokens)
    (motive_1 := fun x pos outs sg s r _ => Calm r → ∃ new, Steps s r new ∧ ∀ tail past,
      Choice eps ps cand (some solver') tokens x pos outs sg (St (new ++ tail) past)
        (setState (St tail (past ++ new)) r))
    (motive_2 := fun x pos sg outs s r _ => Calm r → ∃ new, Steps s r new ∧ ∀ tail past,
      Alts eps ps cand (some solver') tokens x pos sg outs (St (new ++ tail) past)
        (setState (St tail (past ++ new)) r))
    (motive_3 := fun sg ys q s r _ => Calm r → ∃ new, Steps s r new ∧ ∀ tail past,
      Seq eps ps cand (some solver') tokens sg ys q (St (new ++ tail) past)
        (setState (St tail (past ++ new)) r))
    (motive_4 := fun sg y ys pos nd rest r0 r1 _ => Calm r1 → Calm r0 ∧ ∃ new,
      (∀ s m, Steps s r0 m → Steps s r1 (m ++ new)) ∧ ∀ tail past,
      Resume eps ps cand (some solver') tokens sg y ys pos nd rest (setState (St (new ++ tail) past) r0)
        (setState (St tail (past ++ new)) r1))
    ?_ ?_ ?_ ?_ ?_ ?_ ?_ ?_ ?_ ?_ ?_ ?_ ?_ ?_ ?_ ?_ ?_ ?_ ?_ ?_ ?_ ?_ ?_ ?_ ?_ h)
  -- Choice
  · intro x pos outs sg s s' d _ ih hr
    obtain ⟨new, h1, h2⟩ := ih hr
    exact ⟨new, h1, fun tail past => .derived _ _ _ _ _ _ _ (h2 tail past)⟩
  · intro x pos outs sg s _ ih hr
    exact hr.elim
  · intro x pos outs sg s s1 s2 fps fr _ ha ih hr
    obtain ⟨n1, h1, h2⟩ := ih trivial
    obtain ⟨n2, h3, h4⟩ := hans ha
    refine ⟨n1 ++ n2, (show s2.2 = _ from by rw [h3, h1, List.append_assoc]), fun tail past => ?_⟩
    have e1 := h2 (n2 ++ tail) past
    have e2 := h4 tail (past ++ n1)
    rw [List.append_assoc]
    rw [List.append_assoc past] at e2
    exact .fixed _ _ _ _ _ _ _ _ _ e1 e2
  · intro x pos outs sg s s1 s2 fps _ ha ih hr
    obtain ⟨n1, h1, h2⟩ := ih trivial
    obtain ⟨n2, h3, h4⟩ := hans ha
    refine ⟨n1 ++ n2, (show s2.2 = _ from by rw [h3, h1, List.append_assoc]), fun tail past => ?_⟩
    have e1 := h2 (n2 ++ tail) past
    have e2 := h4 tail (past ++ n1)
    rw [List.append_assoc]
    rw [List.append_assoc past] at e2
    exact .failed _ _ _ _ _ _ _ _ e1 e2
  · intro x pos outs sg s s1 fps e _ ha ih hr
    exact hr.elim
  -- Alts
  · intro x pos sg s hr
    refine ⟨[], by simp [Steps], fun tail past => ?_⟩
    simpa [setState] using Alts.none _ _ _ _
  · intro x pos sg out outs s s' ns q _ ih hr
    obtain ⟨new, h1, h2⟩ := ih trivial
    exact ⟨new, h1, fun tail past => .node _ _ _ _ _ _ _ _ _ (h2 tail past)⟩
  · intro x pos sg out outs s s' l q _ hfx ih hr
    obtain ⟨new, h1, h2⟩ := ih trivial
    exact ⟨new, h1, fun tail past => .fixed _ _ _ _ _ _ _ _ _ (h2 tail past) hfx⟩
  · intro x pos sg out outs s s' f l r _ _ ih1 ih2 hr
    obtain ⟨n1, h1, h2⟩ := ih1 trivial
    obtain ⟨n2, h3, h4⟩ := ih2 (calm_consFailed.1 hr)
    refine ⟨n1 ++ n2, steps_consFailed.2 (Steps.trans h1 h3), fun tail past => ?_⟩
    have e1 := h2 (n2 ++ tail) past
    have e2 := h4 tail (past ++ n1)
    rw [List.append_assoc, setState_consFailed]
    rw [List.append_assoc past] at e2
    exact .next _ _ _ _ _ _ _ _ _ _ e1 e2
  · intro x pos sg out outs s _ ih hr
    exact hr.elim
  -- Seq
  · intro sg pos s hr
    refine ⟨[], by simp [Steps], fun tail past => ?_⟩
    simpa [setState] using Seq.nil _ _ _
  · intro sg ys pos s r0 _ ih hr
    obtain ⟨new, h1, h2⟩ := ih (calm_cons.1 hr)
    refine ⟨new, steps_cons.2 h1, fun tail past => ?_⟩
    rw [setState_cons]
    exact .eps _ _ _ _ _ (h2 tail past)
  · intro sg ys pos s t r0 hy he ht _ ih hr
    obtain ⟨new, h1, h2⟩ := ih (calm_cons.1 hr)
    refine ⟨new, steps_cons.2 h1, fun tail past => ?_⟩
    rw [setState_cons]
    exact .terminal _ _ _ _ _ _ hy he ht (h2 tail past)
  · intro sg y ys pos s hy he hne hr
    refine ⟨[], by simp [Steps], fun tail past => ?_⟩
    have := Seq.mismatch (eps := eps) (ps := ps) (cand := cand) (solver := some solver') (tokens := tokens)
      sg y ys pos (St tail past) hy he hne
    simpa [setState] using this
  · intro sg y ys pos s hy ht hr
    exact hr.elim
  · intro sg y ys pos s s1 t nd q rest r0 r1 hy ht _ _ _ ih1 ih2 ih3 hr
    obtain ⟨hc, n3, h5, h6⟩ := ih3 hr
    obtain ⟨n2, h3, h4⟩ := ih2 hc
    obtain ⟨n1, h1, h2⟩ := ih1 trivial
    refine ⟨n1 ++ n2 ++ n3, h5 _ _ (Steps.trans h1 h3), fun tail past => ?_⟩
    have e1 := h2 (n2 ++ (n3 ++ tail)) past
    have e2 := h4 (n3 ++ tail) (past ++ n1)
    have e3 := h6 tail (past ++ n1 ++ n2)
    rw [show n1 ++ n2 ++ n3 ++ tail = n1 ++ (n2 ++ (n3 ++ tail)) by simp only [List.append_assoc],
      show past ++ (n1 ++ n2 ++ n3) = past ++ n1 ++ n2 ++ n3 by simp only [List.append_assoc]]
    exact .nonTerminal _ _ _ _ _ _ _ _ _ _ _ _ hy ht e1 e2 e3
  · intro sg y ys pos s s1 t fs q r0 hy ht _ _ ih1 ih2 hr
    obtain ⟨n2, h3, h4⟩ := ih2 (calm_cons.1 hr)
    obtain ⟨n1, h1, h2⟩ := ih1 trivial
    refine ⟨n1 ++ n2, steps_cons.2 (Steps.trans h1 h3), fun tail past => ?_⟩
    have e1 := h2 (n2 ++ tail) past
    have e2 := h4 tail (past ++ n1)
    rw [List.append_assoc, setState_cons]
    rw [List.append_assoc past] at e2
    exact .fixed _ _ _ _ _ _ _ _ _ _ hy ht e1 e2
  · intro sg y ys pos s s1 t f hy ht _ ih1 hr
    obtain ⟨new, h1, h2⟩ := ih1 trivial
    exact ⟨new, h1, fun tail past => .failed _ _ _ _ _ _ _ _ hy ht (h2 tail past)⟩
  · intro sg y ys pos s t hy ht _ ih1 hr
    exact hr.elim
  -- Resume
  · intro sg y ys pos nd rest l q s hr
    refine ⟨trivial, [], fun s0 m h => ?_, fun tail past => ?_⟩
    · rw [List.append_nil]
      exact h
    · simpa [setState] using Resume.found _ _ _ _ _ _ _ _ _
  · intro sg y ys pos nd rest hr
    exact hr.elim
  · intro sg y ys pos nd nd' rest rest' f s s1 q r0 r1 _ _ _ ih1 ih2 ih3 hr
    obtain ⟨hc, n3, h5, h6⟩ := ih3 hr
    obtain ⟨n2, h3, h4⟩ := ih2 hc
    obtain ⟨n1, h1, h2⟩ := ih1 trivial
    refine ⟨trivial, n1 ++ n2 ++ n3, fun s0 m h => ?_, fun tail past => ?_⟩
    · have h : s.2 = s0.2 ++ m := h
      have h1 : s1.2 = s.2 ++ n1 := h1
      have := h5 s0 (m ++ n1 ++ n2) (Steps.trans (by rw [h1, h, List.append_assoc]) h3)
      simpa only [List.append_assoc] using this
    · have e1 := h2 (n2 ++ (n3 ++ tail)) past
      have e2 := h4 (n3 ++ tail) (past ++ n1)
      have e3 := h6 tail (past ++ n1 ++ n2)
      rw [show n1 ++ n2 ++ n3 ++ tail = n1 ++ (n2 ++ (n3 ++ tail)) by simp only [List.append_assoc],
        show past ++ (n1 ++ n2 ++ n3) = past ++ n1 ++ n2 ++ n3 by simp only [List.append_assoc]]
      exact .again _ _ _ _ _ _ _ _ _ _ _ _ _ _ e1 e2 e3
  · intro sg y ys pos nd rest f s s1 f' _ ih1 hr
    obtain ⟨n1, h1, h2⟩ := ih1 trivial
    refine ⟨trivial, n1, fun s0 m h => ?_, fun tail past => .gaveUp _ _ _ _ _ _ _ _ _ _ (h2 tail past)⟩
    have h : s.2 = s0.2 ++ m := h
    have h1 : s1.2 = s.2 ++ n1 := h1
    show s1.2 = _
    rw [h1, h, List.append_assoc]
  · intro sg y ys pos nd rest f s s1 fs q _ ih1 hr
    obtain ⟨n1, h1, h2⟩ := ih1 trivial
    refine ⟨trivial, n1, fun s0 m h => ?_, fun tail past => .fixDropped _ _ _ _ _ _ _ _ _ _ _ (h2 tail past)⟩
    have h : s.2 = s0.2 ++ m := h
    have h1 : s1.2 = s.2 ++ n1 := h1
    show s1.2 = _
    rw [h1, h, List.append_assoc]
  · intro sg y ys pos nd rest f s _ ih1 hr
    exact hr.elim

end Verif.Parser.Recovery
