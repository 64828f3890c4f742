import Verif.Proof.RecoveryOff
import Verif.Spec.CallLog

/-! # The order of solver calls -/

set_option linter.unusedSectionVars false

namespace Verif.Parser.Recovery

open Spec Spec.Recovery

variable {σ L T : Type} {eps : T} {ps : List (Production T)} {cand : T → T → List (List T)}
  {tokens : List (Token L T)} {sv : Solver σ L T}

theorem answer_log {pos : Nat} {fps : List (FailedProduction L T)}
    {s s' : σ × List (LoggedCall L T)} {o : Option (FixResult L T)}
    (h : answer (some (logCalls sv)) tokens pos true fps s = .ok (o, s')) :
    s'.2 = s.2 ++ [⟨pos, fps, o.isSome⟩] := by
  obtain ⟨s, log⟩ := s
  have key : ∀ (x : Out (Option (FixResult L T) × σ)),
      (match x with
        | .ok (o, s') => .ok (o, (s', log ++ [⟨pos, fps, o.isSome⟩]))
        | .panic e => .panic e
        | .fuel => .fuel : Out (Option (FixResult L T) × (σ × List (LoggedCall L T)))) = .ok (o, s') →
      s'.2 = log ++ [⟨pos, fps, o.isSome⟩] := by
    intro x h
    cases x with
    | ok a =>
      simp only [Out.ok.injEq, Prod.mk.injEq] at h
      obtain ⟨rfl, rfl⟩ := h
      rfl
    | panic e' => simp at h
    | fuel => simp at h
  rcases fps with _ | ⟨fp, _ | ⟨b, c⟩⟩
  · exact key (sv.fixFailedProductions tokens pos [] s) h
  · exact key (sv.fixFailedProduction tokens pos fp s) h
  · exact key (sv.fixFailedProductions tokens pos (fp :: b :: c) s) h

/-! ## A production is offered to the solver after the symbol that failed in it -/

/-- The solver was asked about `fps` and declined. -/
def Declined (log : List (LoggedCall L T)) (fps : List (FailedProduction L T)) : Prop :=
  ∃ e ∈ log, e.fixed = false ∧ e.failed = fps

/-- Every single production in the log was offered after the non-terminal that failed in it. -/
def Good (ps : List (Production T)) (log : List (LoggedCall L T)) : Prop :=
  ∀ a e b, log = a ++ e :: b → ∀ fp, e.failed = [fp] →
    IsNonTerminal ps fp.failedSymbol.symbolToDerive → Declined a fp.failedSymbol.failedProductions

/-- The log has grown and is still good. -/
def Step (ps : List (Production T)) (s s' : σ × List (LoggedCall L T)) : Prop :=
  s.2 <+: s'.2 ∧ (Good ps s.2 → Good ps s'.2)

theorem Step.refl (s : σ × List (LoggedCall L T)) : Step ps s s := ⟨List.prefix_rfl, id⟩

theorem Step.trans {s s1 s2 : σ × List (LoggedCall L T)} (h : Step ps s s1) (h' : Step ps s1 s2) :
    Step ps s s2 := ⟨h.1.trans h'.1, fun g => h'.2 (h.2 g)⟩

theorem Declined.mono {l l' : List (LoggedCall L T)} (h : l <+: l') {fps} (hd : Declined l fps) :
    Declined l' fps := by
  obtain ⟨e, he, h1, h2⟩ := hd
  exact ⟨e, h.subset he, h1, h2⟩

/-- An outcome after a good extension of the log, with a statement about the log if it is a
failure. -/
def After {α β : Type} (ps : List (Production T)) (s : σ × List (LoggedCall L T))
    (D : β → List (LoggedCall L T) → Prop) : Outcome (σ × List (LoggedCall L T)) α β → Prop
  | .found _ s' => Step ps s s'
  | .failed b s' => Step ps s s' ∧ D b s'.2
  | .panicked => True

theorem After.trans {α β : Type} {s s1 : σ × List (LoggedCall L T)}
    {D : β → List (LoggedCall L T) → Prop} {r : Outcome (σ × List (LoggedCall L T)) α β}
    (h : Step ps s s1) (h' : After ps s1 D r) : After ps s D r := by
  match r, h' with
  | .found _ _, h' => exact h.trans h'
  | .failed _ _, h' => exact ⟨h.trans h'.1, h'.2⟩
  | .panicked, _ => trivial

/-- The failed non-terminal was declined. -/
def SymDeclined (ps : List (Production T)) (sg : Bool) (f : FailedSymbol L T)
    (log : List (LoggedCall L T)) : Prop :=
  sg = true → IsNonTerminal ps f.symbolToDerive → Declined log f.failedProductions

/-- The non-terminals that failed in the productions were declined. -/
def ProdsDeclined (ps : List (Production T)) (sg : Bool) (fps : List (FailedProduction L T))
    (log : List (LoggedCall L T)) : Prop :=
  ∀ fp ∈ fps, SymDeclined ps sg fp.failedSymbol log

theorem After.cons {sg : Bool} {s : σ × List (LoggedCall L T)} {a : Part L T}
    {r : SeqOutcome (σ × List (LoggedCall L T)) L T}
    (h : After ps s (fun b log => SymDeclined ps sg b.1 log) r) :
    After ps s (fun b log => SymDeclined ps sg b.1 log) (r.cons a) := by
  match r, h with
  | .found (_, _) _, h => exact h
  | .failed (_, _) _, h => exact h
  | .panicked, _ => trivial

theorem step_of_answer {x : T} {pos : Nat} {outs : List (List T)}
    {s s1 s2 : σ × List (LoggedCall L T)} {fps : List (FailedProduction L T)}
    {o : Option (FixResult L T)}
    (hA : Alts eps ps cand (some (logCalls sv)) tokens x pos (true && decide (outs.length = 1)) outs s
      (.failed fps s1))
    (ha : answer (some (logCalls sv)) tokens pos true fps s1 = .ok (o, s2))
    (hd : ProdsDeclined ps (true && decide (outs.length = 1)) fps s1.2) : Step ps s1 s2 := by
  have hlen := alts_length hA _ _ rfl
  unfold Step
  rw [answer_log ha]
  refine ⟨List.prefix_append _ _, fun hg a e b heq fp hfp hnt => ?_⟩
  rcases List.eq_nil_or_concat b with rfl | ⟨b', c, rfl⟩
  · obtain ⟨rfl, h2⟩ := List.append_inj' heq rfl
    simp only [List.cons.injEq, and_true] at h2
    subst h2
    simp only at hfp
    subst hfp
    refine hd fp (by simp) ?_ hnt
    simp at hlen
    simp [← hlen]
  · have heq' : s1.2 ++ [⟨pos, fps, o.isSome⟩] = (a ++ e :: b') ++ [c] := by simp [heq]
    obtain ⟨h1, h2⟩ := List.append_inj' heq' rfl
    exact hg a e b' h1 fp hfp hnt

theorem choice_declined {x : T} {pos : Nat} {outs : List (List T)} {sg : Bool}
    {s : σ × List (LoggedCall L T)}
    {r : Outcome (σ × List (LoggedCall L T)) (Derived L T) (FailedSymbol L T)}
    (h : Choice eps ps cand (some (logCalls sv)) tokens x pos outs sg s r) :
    After ps s (SymDeclined ps sg) r := by
  refine (Choice.rec (eps := eps) (ps := ps) (cand := cand)
    (solver := some (logCalls sv)) (tokens := tokens)
    (motive_1 := fun x pos outs sg s r _ => After ps s (SymDeclined ps sg) r)
    (motive_2 := fun x pos sg outs s r _ => After ps s (ProdsDeclined ps sg) r)
    (motive_3 := fun sg ys q s r _ => After ps s (fun b log => SymDeclined ps sg b.1 log) r)
    (motive_4 := fun sg y ys pos nd rest r0 r1 _ =>
      ∀ s, After ps s (fun b log => SymDeclined ps sg b.1 log) r0 →
        After ps s (fun b log => SymDeclined ps sg b.1 log) r1)
    ?_ ?_ ?_ ?_ ?_ ?_ ?_ ?_ ?_ ?_ ?_ ?_ ?_ ?_ ?_ ?_ ?_ ?_ ?_ ?_ ?_ ?_ ?_ ?_ ?_ h)
  -- Choice
  · intro x pos outs sg s s' d _ ih
    exact ih
  · intro x pos outs sg s _ ih
    trivial
  · intro x pos outs sg s s1 s2 fps fr hA ha ih
    cases sg with
    | false => rw [answer_off] at ha; simp at ha
    | true => exact ih.1.trans (step_of_answer hA ha ih.2)
  · intro x pos outs sg s s1 s2 fps hA ha ih
    cases sg with
    | false =>
      rw [answer_off] at ha
      simp only [Out.ok.injEq, Prod.mk.injEq, true_and] at ha
      subst ha
      exact ⟨ih.1, fun h => by cases h⟩
    | true =>
      refine ⟨ih.1.trans (step_of_answer hA ha ih.2), fun _ _ => ?_⟩
      rw [answer_log ha]
      exact ⟨⟨pos, fps, false⟩, by simp, rfl, rfl⟩
  · intro x pos outs sg s s1 fps e _ ha ih
    trivial
  -- Alts
  · intro x pos sg s
    exact ⟨.refl _, fun fp h => by cases h⟩
  · intro x pos sg out outs s s' ns q _ ih
    exact ih
  · intro x pos sg out outs s s' l q _ hfx ih
    exact ih
  · intro x pos sg out outs s s' f l r _ _ ih1 ih2
    match r, ih2 with
    | .found _ _, h => exact ih1.1.trans h
    | .panicked, _ => trivial
    | .failed fps s2, h =>
      have h3 := h.1.1
      have h := And.intro (ih1.1.trans h.1) h.2
      refine ⟨h.1, ?_⟩
      intro fp hfp
      simp only [List.mem_cons] at hfp
      rcases hfp with rfl | hfp
      · exact fun h1 h2 => (ih1.2 h1 h2).mono h3
      · exact h.2 fp hfp
  · intro x pos sg out outs s _ ih
    trivial
  -- Seq
  · intro sg pos s
    exact .refl _
  · intro sg ys pos s r0 _ ih
    exact ih.cons
  · intro sg ys pos s t r0 hy he ht _ ih
    exact ih.cons
  · intro sg y ys pos s hy he hne
    exact ⟨.refl _, fun _ h => absurd h hy⟩
  · intro sg y ys pos s hy ht
    trivial
  · intro sg y ys pos s s1 t nd q rest r0 r1 hy ht _ _ _ ih1 ih2 ih3
    exact ih3 s (After.trans ih1 ih2)
  · intro sg y ys pos s s1 t fs q r0 hy ht _ _ ih1 ih2
    exact (After.trans ih1 ih2).cons
  · intro sg y ys pos s s1 t f hy ht _ ih1
    exact ih1
  · intro sg y ys pos s t hy ht _ ih1
    trivial
  -- Resume
  · intro sg y ys pos nd rest l q s s0 h
    exact h
  · intro sg y ys pos nd rest s0 h
    trivial
  · intro sg y ys pos nd nd' rest rest' f s s1 q r0 r1 _ _ _ ih1 ih2 ih3 s0 h
    exact ih3 s0 (After.trans (h.1.trans ih1) ih2)
  · intro sg y ys pos nd rest f s s1 f' _ ih1 s0 h
    exact ⟨h.1.trans ih1.1, fun h1 h2 => (h.2 h1 h2).mono ih1.1.1⟩
  · intro sg y ys pos nd rest f s s1 fs q _ ih1 s0 h
    exact ⟨h.1.trans ih1, fun h1 h2 => (h.2 h1 h2).mono ih1.1⟩
  · intro sg y ys pos nd rest f s _ ih1 s0 h
    trivial

/-! ## Without conflicts the parent production is offered after a declined child -/

/-- Every declined call of the log is followed by a call for the single production in which the symbol
failed, or is about failed productions in `P`. -/
def Fol (new : List (LoggedCall L T)) (P : List (FailedProduction L T) → Prop) : Prop :=
  ∀ a e b, new = a ++ e :: b → e.fixed = false → e.failed ≠ [] →
    (∃ e' ∈ b, ∃ fp, e'.failed = [fp] ∧ fp.failedSymbol.failedProductions = e.failed) ∨ P e.failed

theorem Fol.nil (P : List (FailedProduction L T) → Prop) : Fol (L := L) (T := T) [] P := by
  intro a e b h
  simp at h

theorem Fol.mono {new : List (LoggedCall L T)} {P Q : List (FailedProduction L T) → Prop}
    (h : Fol new P) (hPQ : ∀ l, l ≠ [] → P l → Q l) : Fol new Q := by
  intro a e b h1 h2 h3
  exact (h a e b h1 h2 h3).imp id (hPQ _ h3)

theorem Fol.append {l l' : List (LoggedCall L T)} {P Q : List (FailedProduction L T) → Prop}
    (h : Fol l P) (h' : Fol l' Q) : Fol (l ++ l') (fun x => P x ∨ Q x) := by
  intro a e b h1 h2 h3
  rcases List.append_eq_append_iff.1 h1 with ⟨a', rfl, h5⟩ | ⟨c', rfl, h5⟩
  · exact (h' a' e b h5 h2 h3).imp id .inr
  · cases c' with
    | nil =>
      simp only [List.nil_append] at h5
      exact (h' [] e b h5.symm h2 h3).imp id .inr
    | cons c cs =>
      simp only [List.cons_append, List.cons.injEq] at h5
      obtain ⟨rfl, rfl⟩ := h5
      rcases h a e cs rfl h2 h3 with ⟨e', he', h6⟩ | h6
      · exact .inl ⟨e', by simp [he'], h6⟩
      · exact .inr (.inl h6)

/-- The log has grown by calls that are followed up, or are about failed productions in `P`. -/
def Grown (s s' : σ × List (LoggedCall L T)) (P : List (FailedProduction L T) → Prop) : Prop :=
  ∃ new, s'.2 = s.2 ++ new ∧ Fol new P

theorem Grown.refl (s : σ × List (LoggedCall L T)) (P) : Grown s s P := ⟨[], by simp, .nil _⟩

theorem Grown.trans {s s1 s2 : σ × List (LoggedCall L T)} {P Q R : List (FailedProduction L T) → Prop}
    (h : Grown s s1 P) (h' : Grown s1 s2 Q) (hP : ∀ l, l ≠ [] → P l → R l)
    (hQ : ∀ l, l ≠ [] → Q l → R l) : Grown s s2 R := by
  obtain ⟨n1, e1, f1⟩ := h
  obtain ⟨n2, e2, f2⟩ := h'
  refine ⟨n1 ++ n2, by rw [e2, e1, List.append_assoc], (f1.append f2).mono ?_⟩
  rintro l hl (h | h)
  · exact hP l hl h
  · exact hQ l hl h

/-- An outcome after such a growth; `D b` are the failed productions not followed up in the failure
`b`. -/
def AfterF {α β : Type} (s : σ × List (LoggedCall L T))
    (D : β → List (FailedProduction L T) → Prop) : Outcome (σ × List (LoggedCall L T)) α β → Prop
  | .found _ s' => Grown s s' (fun _ => False)
  | .failed b s' => Grown s s' (D b)
  | .panicked => True

theorem AfterF.trans {α β : Type} {s s1 : σ × List (LoggedCall L T)}
    {D : β → List (FailedProduction L T) → Prop} {r : Outcome (σ × List (LoggedCall L T)) α β}
    (h : Grown s s1 (fun _ => False)) (h' : AfterF s1 D r) : AfterF s D r := by
  match r, h' with
  | .found _ _, h' => exact h.trans h' (fun _ _ h => h.elim) (fun _ _ h => h)
  | .failed _ _, h' => exact h.trans h' (fun _ _ h => h.elim) (fun _ _ h => h)
  | .panicked, _ => trivial

/-- The failed productions of the symbol. -/
def OfSym (f : FailedSymbol L T) (l : List (FailedProduction L T)) : Prop := l = f.failedProductions

/-- The failed productions of the symbol that failed in the only production. -/
def OfProds (fps : List (FailedProduction L T)) (l : List (FailedProduction L T)) : Prop :=
  ∃ fp, fps = [fp] ∧ fp.failedSymbol.failedProductions = l

theorem AfterF.cons {s : σ × List (LoggedCall L T)} {a : Part L T}
    {r : SeqOutcome (σ × List (LoggedCall L T)) L T}
    (h : AfterF s (fun b => OfSym b.1) r) : AfterF s (fun b => OfSym b.1) (r.cons a) := by
  match r, h with
  | .found (_, _) _, h => exact h
  | .failed (_, _) _, h => exact h
  | .panicked, _ => trivial

theorem grown_of_answer {pos : Nat} {s1 s2 : σ × List (LoggedCall L T)}
    {fps : List (FailedProduction L T)} {o : Option (FixResult L T)} {s : σ × List (LoggedCall L T)}
    (h : Grown s s1 (OfProds fps))
    (ha : answer (some (logCalls sv)) tokens pos true fps s1 = .ok (o, s2)) :
    Grown s s2 (fun l => o = none ∧ l = fps) := by
  obtain ⟨new, h1, h2⟩ := h
  refine ⟨new ++ [⟨pos, fps, o.isSome⟩], by rw [answer_log ha, h1, List.append_assoc], ?_⟩
  intro a e b heq hf hne
  rcases List.eq_nil_or_concat b with rfl | ⟨b', c, rfl⟩
  · obtain ⟨rfl, h3⟩ := List.append_inj' heq rfl
    simp only [List.cons.injEq, and_true] at h3
    subst h3
    refine .inr ⟨?_, rfl⟩
    cases o with
    | none => rfl
    | some r => simp at hf
  · have heq' : new ++ [⟨pos, fps, o.isSome⟩] = (a ++ e :: b') ++ [c] := by simp [heq]
    obtain ⟨h3, h4⟩ := List.append_inj' heq' rfl
    simp only [List.cons.injEq, and_true] at h4
    subst h4
    rcases h2 a e b' h3 hf hne with ⟨e', he', h5⟩ | ⟨fp, h5, h6⟩
    · exact .inl ⟨e', by simp [he'], h5⟩
    · exact .inl ⟨⟨pos, fps, o.isSome⟩, by simp, fp, h5, h6⟩

theorem alts_noRest {solver : Option (Solver (σ × List (LoggedCall L T)) L T)} {x : T} {pos : Nat}
    {outs : List (List T)} {sg : Bool} {s s' : σ × List (LoggedCall L T)} {d : Derived L T}
    (hlen : outs.length ≤ 1) (h : Alts eps ps cand solver tokens x pos sg outs s (.found d s')) :
    outs ≠ [] ∧ ∀ n q rest, d = .node n q rest → rest = [] := by
  match outs, hlen, h with
  | [], _, h => cases h
  | out :: os, hlen, h =>
    have hos : os = [] := by simp at hlen; exact hlen
    subst hos
    refine ⟨by simp, ?_⟩
    intro n q rest e
    subst e
    generalize hr : (Outcome.found (Derived.node n q rest) s' :
      Outcome (σ × List (LoggedCall L T)) (Derived L T) (List (FailedProduction L T))) = r at h
    cases h with
    | node => cases hr; rfl
    | fixed => cases hr
    | panicked => cases hr
    | next _ _ _ _ _ _ _ _ _ r' _ h2 =>
      cases h2
      cases hr

theorem choice_noRest {solver : Option (Solver (σ × List (LoggedCall L T)) L T)} {x : T} {pos : Nat}
    {outs : List (List T)} {sg : Bool} {s s' : σ × List (LoggedCall L T)} {n : Node L T} {q : Nat}
    {rest : List (List T)} (hlen : outs.length ≤ 1)
    (h : Choice eps ps cand solver tokens x pos outs sg s (.found (.node n q rest) s')) :
    outs ≠ [] ∧ rest = [] := by
  cases h with
  | derived _ _ _ _ _ _ _ hA =>
    obtain ⟨h1, h2⟩ := alts_noRest hlen hA
    exact ⟨h1, h2 _ _ _ rfl⟩

theorem choice_nil_failed {solver : Option (Solver (σ × List (LoggedCall L T)) L T)} {x : T} {pos : Nat}
    {sg : Bool} {s s' : σ × List (LoggedCall L T)} {f : FailedSymbol L T}
    (h : Choice eps ps cand solver tokens x pos [] sg s (.failed f s')) : f.failedProductions = [] := by
  cases h with
  | failed _ _ _ _ _ s1 _ fps hA ha => cases hA; rfl

theorem choice_followed (hcf : ∀ x a, (cand x a).length ≤ 1) {x : T} {pos : Nat}
    {outs : List (List T)} {sg : Bool} {s : σ × List (LoggedCall L T)}
    {r : Outcome (σ × List (LoggedCall L T)) (Derived L T) (FailedSymbol L T)}
    (h : Choice eps ps cand (some (logCalls sv)) tokens x pos outs sg s r) (hlen : outs.length ≤ 1) :
    AfterF s OfSym r := by
  refine (Choice.rec (eps := eps) (ps := ps) (cand := cand)
    (solver := some (logCalls sv)) (tokens := tokens)
    (motive_1 := fun x pos outs sg s r _ => outs.length ≤ 1 → AfterF s OfSym r)
    (motive_2 := fun x pos sg outs s r _ => outs.length ≤ 1 → AfterF s OfProds r)
    (motive_3 := fun sg ys q s r _ => AfterF s (fun b => OfSym b.1) r)
    (motive_4 := fun sg y ys pos nd rest r0 r1 _ => rest = [] →
      ∀ s, AfterF s (fun b => OfSym b.1) r0 → AfterF s (fun b => OfSym b.1) r1)
    ?_ ?_ ?_ ?_ ?_ ?_ ?_ ?_ ?_ ?_ ?_ ?_ ?_ ?_ ?_ ?_ ?_ ?_ ?_ ?_ ?_ ?_ ?_ ?_ ?_ h) hlen
  -- Choice
  · intro x pos outs sg s s' d _ ih hl
    exact ih hl
  · intro x pos outs sg s _ ih hl
    trivial
  · intro x pos outs sg s s1 s2 fps fr hA ha ih hl
    cases sg with
    | false => rw [answer_off] at ha; simp at ha
    | true =>
      obtain ⟨new, h1, h2⟩ := grown_of_answer (ih hl) ha
      exact ⟨new, h1, h2.mono (fun _ _ h => by simp at h)⟩
  · intro x pos outs sg s s1 s2 fps hA ha ih hl
    cases sg with
    | false =>
      have hk := (alts_off (some (logCalls sv)) hA).2
      rw [answer_off] at ha
      simp only [Out.ok.injEq, Prod.mk.injEq, true_and] at ha
      subst ha
      have hk : s1 = s := hk
      subst hk
      exact .refl _ _
    | true =>
      obtain ⟨new, h1, h2⟩ := grown_of_answer (ih hl) ha
      exact ⟨new, h1, h2.mono (fun _ _ h => h.2)⟩
  · intro x pos outs sg s s1 fps e _ ha ih hl
    trivial
  -- Alts
  · intro x pos sg s _
    exact .refl _ _
  · intro x pos sg out outs s s' ns q _ ih _
    exact ih
  · intro x pos sg out outs s s' l q _ hfx ih _
    exact ih
  · intro x pos sg out outs s s' f l r _ hA ih1 ih2 hl
    have hos : outs = [] := by simp at hl; exact hl
    subst hos
    cases hA
    obtain ⟨new, h1, h2⟩ := ih1
    refine ⟨new, h1, h2.mono ?_⟩
    intro l' _ h
    exact ⟨_, rfl, h.symm⟩
  · intro x pos sg out outs s _ ih _
    trivial
  -- Seq
  · intro sg pos s
    exact .refl _ _
  · intro sg ys pos s r0 _ ih
    exact ih.cons
  · intro sg ys pos s t r0 hy he ht _ ih
    exact ih.cons
  · intro sg y ys pos s hy he hne
    exact .refl _ _
  · intro sg y ys pos s hy ht
    trivial
  · intro sg y ys pos s s1 t nd q rest r0 r1 hy ht hC _ _ ih1 ih2 ih3
    exact ih3 (choice_noRest (hcf _ _) hC).2 s (AfterF.trans (ih1 (hcf _ _)) ih2)
  · intro sg y ys pos s s1 t fs q r0 hy ht _ _ ih1 ih2
    exact (AfterF.trans (ih1 (hcf _ _)) ih2).cons
  · intro sg y ys pos s s1 t f hy ht _ ih1
    exact ih1 (hcf _ _)
  · intro sg y ys pos s t hy ht _ ih1
    trivial
  -- Resume
  · intro sg y ys pos nd rest l q s _ s0 h
    exact h
  · intro sg y ys pos nd rest _ s0 h
    trivial
  · intro sg y ys pos nd nd' rest rest' f s s1 q r0 r1 hC _ _ ih1 ih2 ih3 hr s0 h
    subst hr
    exact absurd rfl (choice_noRest (by simp) hC).1
  · intro sg y ys pos nd rest f s s1 f' hC ih1 hr s0 h
    subst hr
    have hf := choice_nil_failed hC
    refine Grown.trans h (ih1 (by simp)) (fun _ _ h => h) ?_
    intro l hl h
    unfold OfSym at h
    rw [hf] at h
    exact absurd h hl
  · intro sg y ys pos nd rest f s s1 fs q _ ih1 hr s0 h
    subst hr
    exact Grown.trans h (ih1 (by simp)) (fun _ _ h => h) (fun _ _ h => h.elim)
  · intro sg y ys pos nd rest f s _ ih1 _ s0 h
    trivial

end Verif.Parser.Recovery
