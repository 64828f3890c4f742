import Verif.Proof.CallLog

/-! # Without conflicts a fix is kept -/

set_option linter.unusedSectionVars false

namespace Verif.Parser.Recovery

open Spec Spec.Recovery

variable {σ L T : Type} {eps : T} {ps : List (Production T)} {cand : T → T → List (List T)}
  {tokens : List (Token L T)} {sv : Solver σ L T}

/-- If a fix of at least one failed production was returned between the two states, `K`. -/
def KeepsFix (s s' : σ × List (LoggedCall L T)) (K : Prop) : Prop :=
  ∃ new, s'.2 = s.2 ++ new ∧ ((∃ c ∈ new, c.fixed = true ∧ c.failed ≠ []) → K)

theorem KeepsFix.refl (s : σ × List (LoggedCall L T)) (K : Prop) : KeepsFix s s K :=
  ⟨[], by simp, by simp⟩

theorem KeepsFix.trans {s s1 s2 : σ × List (LoggedCall L T)} {K K1 K2 : Prop} (h1 : KeepsFix s s1 K1)
    (h2 : KeepsFix s1 s2 K2) (e1 : K1 → K) (e2 : K2 → K) : KeepsFix s s2 K := by
  obtain ⟨n1, a1, b1⟩ := h1
  obtain ⟨n2, a2, b2⟩ := h2
  refine ⟨n1 ++ n2, by rw [a2, a1, List.append_assoc], ?_⟩
  rintro ⟨c, hc, h⟩
  rcases List.mem_append.1 hc with hc | hc
  · exact e1 (b1 ⟨c, hc, h⟩)
  · exact e2 (b2 ⟨c, hc, h⟩)

theorem KeepsFix.mono {s s' : σ × List (LoggedCall L T)} {K K' : Prop} (h : KeepsFix s s' K)
    (e : K → K') : KeepsFix s s' K' := by
  obtain ⟨n1, a1, b1⟩ := h
  exact ⟨n1, a1, fun h => e (b1 h)⟩

/-- What is known of an outcome: `A` of what was found, `B` of what failed. -/
def AfterK {α β : Type} (s : σ × List (LoggedCall L T)) (A : α → Prop) (B : β → Prop) :
    Outcome (σ × List (LoggedCall L T)) α β → Prop
  | .found a s' => KeepsFix s s' (A a)
  | .failed b s' => KeepsFix s s' (B b)
  | .panicked => True

theorem AfterK.trans {α β : Type} {s s1 : σ × List (LoggedCall L T)} {A : α → Prop} {B : β → Prop}
    {r : Outcome (σ × List (LoggedCall L T)) α β}
    (h : KeepsFix s s1 False) (h' : AfterK s1 A B r) : AfterK s A B r := by
  match r, h' with
  | .found _ _, h' => exact h.trans h' False.elim id
  | .failed _ _, h' => exact h.trans h' False.elim id
  | .panicked, _ => trivial

/-- A derived non-terminal is a fix. -/
def IsFix : Derived L T → Prop
  | .node _ _ _ => False
  | .fixed _ _ => True

def FixIn (l : List (Part L T)) : Prop := ∃ fs, ProductionParsedSymbol.fix fs ∈ l

def SeqA (a : List (Part L T) × Nat) : Prop := FixIn a.1
def SeqB (b : FailedSymbol L T × List (Part L T)) : Prop := HasFix b.1 ∨ FixIn b.2
def AltsB (fps : List (FailedProduction L T)) : Prop :=
  ∃ fp ∈ fps, HasFix fp.failedSymbol ∨ FixIn fp.parsedSymbols

theorem AfterK.cons {s : σ × List (LoggedCall L T)} {a : Part L T}
    {r : SeqOutcome (σ × List (LoggedCall L T)) L T} (h : AfterK s SeqA SeqB r) :
    AfterK s SeqA SeqB (r.cons a) := by
  match r, h with
  | .found (l, q) _, h =>
    refine KeepsFix.mono (K := SeqA (l, q)) h ?_
    rintro ⟨fs, h⟩
    exact ⟨fs, List.mem_cons_of_mem _ h⟩
  | .failed (f, l) _, h =>
    refine KeepsFix.mono (K := SeqB (f, l)) h ?_
    rintro (h | ⟨fs, h⟩)
    · exact .inl h
    · exact .inr ⟨fs, List.mem_cons_of_mem _ h⟩
  | .panicked, _ => trivial

/-- After a fix everything found or reported holds one. -/
theorem AfterK.consFix {s s1 : σ × List (LoggedCall L T)} {fs : FixedSymbol L T} {K : Prop}
    {r : SeqOutcome (σ × List (LoggedCall L T)) L T} (h1 : KeepsFix s s1 K) (h : AfterK s1 SeqA SeqB r) :
    AfterK s SeqA SeqB (r.cons (.fix fs)) := by
  match r, h with
  | .found (l, q) _, h => exact KeepsFix.trans h1 h (fun _ => ⟨fs, by simp⟩) (fun _ => ⟨fs, by simp⟩)
  | .failed (f, l) _, h =>
    exact KeepsFix.trans h1 h (fun _ => .inr ⟨fs, by simp⟩) (fun _ => .inr ⟨fs, by simp⟩)
  | .panicked, _ => trivial

theorem hasFix_of_alts {fps : List (FailedProduction L T)} {x : T} (h : AltsB fps) :
    HasFix (.mk fps x : FailedSymbol L T) := by
  obtain ⟨fp, hfp, ⟨fp', fs, h, h'⟩ | ⟨fs, h⟩⟩ := h
  · exact ⟨fp', fs, .deep _ fp hfp h, h'⟩
  · exact ⟨fp, fs, .here _ hfp, h⟩

theorem hasFix_iff {f : FailedSymbol L T} : HasFix f ↔ AltsB f.failedProductions := by
  constructor
  · rintro ⟨fp, fs, h, h'⟩
    cases h with
    | here _ h => exact ⟨fp, h, .inr ⟨fs, h'⟩⟩
    | deep _ fp' h h2 => exact ⟨fp', h, .inl ⟨fp, fs, h2, h'⟩⟩
  · obtain ⟨fps, x⟩ := f
    exact hasFix_of_alts

theorem keeps_answer {pos : Nat} {s s1 : σ × List (LoggedCall L T)}
    {fps : List (FailedProduction L T)} {o : Option (FixResult L T)}
    (ha : answer (some (logCalls sv)) tokens pos true fps s = .ok (o, s1)) :
    KeepsFix s s1 (o.isSome = true ∧ fps ≠ []) :=
  ⟨[⟨pos, fps, o.isSome⟩], answer_log ha, by simp⟩

theorem choice_fixKept (hcf : ∀ x a, (cand x a).length ≤ 1) {x : T} {pos : Nat}
    {outs : List (List T)} {sg : Bool} {s : σ × List (LoggedCall L T)}
    {r : Outcome (σ × List (LoggedCall L T)) (Derived L T) (FailedSymbol L T)}
    (h : Choice eps ps cand (some (logCalls sv)) tokens x pos outs sg s r) (hlen : outs.length ≤ 1) :
    AfterK s IsFix HasFix r := by
  refine (Choice.rec (eps := eps) (ps := ps) (cand := cand)
    (solver := some (logCalls sv)) (tokens := tokens)
    (motive_1 := fun x pos outs sg s r _ => outs.length ≤ 1 → AfterK s IsFix HasFix r)
    (motive_2 := fun x pos sg outs s r _ => outs.length ≤ 1 → AfterK s IsFix AltsB r)
    (motive_3 := fun sg ys q s r _ => AfterK s SeqA SeqB r)
    (motive_4 := fun sg y ys pos nd rest r0 r1 _ => rest = [] →
      ∀ s, AfterK s SeqA SeqB r0 → AfterK s SeqA SeqB r1)
    ?_ ?_ ?_ ?_ ?_ ?_ ?_ ?_ ?_ ?_ ?_ ?_ ?_ ?_ ?_ ?_ ?_ ?_ ?_ ?_ ?_ ?_ ?_ ?_ ?_ h) hlen
  -- Choice
  · intro x pos outs sg s s' d _ ih hl
    exact ih hl
  · intro x pos outs sg s _ ih hl
    trivial
  · intro x pos outs sg s s1 s2 fps fr hA ha ih hl
    cases sg with
    | false => rw [answer_off] at ha; simp at ha
    | true => exact KeepsFix.trans (ih hl) (keeps_answer ha) (fun _ => trivial) (fun _ => trivial)
  · intro x pos outs sg s s1 s2 fps hA ha ih hl
    cases sg with
    | false =>
      rw [answer_off] at ha
      simp only [Out.ok.injEq, Prod.mk.injEq, true_and] at ha
      subst ha
      exact KeepsFix.mono (ih hl) hasFix_of_alts
    | true => exact KeepsFix.trans (ih hl) (keeps_answer ha) hasFix_of_alts (by simp)
  · intro x pos outs sg s s1 fps e _ ha ih hl
    trivial
  -- Alts
  · intro x pos sg s _
    exact .refl _ _
  · intro x pos sg out outs s s' ns q _ ih _
    refine KeepsFix.mono (K := SeqA (ns.map .ok, q)) ih ?_
    rintro ⟨fs, h⟩
    simp at h
  · intro x pos sg out outs s s' l q _ hfx ih _
    exact KeepsFix.mono (K := SeqA (l, q)) ih (fun _ => trivial)
  · intro x pos sg out outs s s' f l r _ hA ih1 ih2 hl
    have hos : outs = [] := by simp at hl; exact hl
    subst hos
    cases hA
    refine KeepsFix.mono (K := SeqB (f, l)) ih1 ?_
    intro h
    exact ⟨_, List.mem_singleton_self _, h⟩
  · intro x pos sg out outs s _ ih _
    trivial
  -- Seq
  · intro sg pos s
    exact .refl _ _
  · intro sg ys pos s r0 _ ih
    exact ih.cons
  · intro sg ys pos s t r0 hy he ht _ ih
    exact ih.cons
  · intro sg y ys pos s hy he hne
    exact .refl _ _
  · intro sg y ys pos s hy ht
    trivial
  · intro sg y ys pos s s1 t nd q rest r0 r1 hy ht hC _ _ ih1 ih2 ih3
    exact ih3 (choice_noRest (hcf _ _) hC).2 s (AfterK.trans (ih1 (hcf _ _)) ih2)
  · intro sg y ys pos s s1 t fs q r0 hy ht _ _ ih1 ih2
    exact AfterK.consFix (ih1 (hcf _ _)) ih2
  · intro sg y ys pos s s1 t f hy ht _ ih1
    exact KeepsFix.mono (K := HasFix f) (ih1 (hcf _ _)) .inl
  · intro sg y ys pos s t hy ht _ ih1
    trivial
  -- Resume
  · intro sg y ys pos nd rest l q s _ s0 h
    exact (AfterK.cons (r := .found (l, q) s) h)
  · intro sg y ys pos nd rest _ s0 h
    trivial
  · intro sg y ys pos nd nd' rest rest' f s s1 q r0 r1 hC _ _ ih1 ih2 ih3 hr s0 h
    subst hr
    exact absurd rfl (choice_noRest (by simp) hC).1
  · intro sg y ys pos nd rest f s s1 f' hC ih1 hr s0 h
    subst hr
    have hf := choice_nil_failed hC
    refine KeepsFix.trans (K := SeqB f) h (ih1 (by simp)) id ?_
    intro h
    rw [hasFix_iff, hf] at h
    obtain ⟨_, h, _⟩ := h
    cases h
  · intro sg y ys pos nd rest f s s1 fs q hC ih1 hr s0 h
    subst hr
    cases hC with
    | derived _ _ _ _ _ _ _ hA => cases hA
    | fixed _ _ _ _ _ _ _ fps r hA ha =>
      cases hA
      cases sg with
      | false => rw [answer_off] at ha; simp at ha
      | true => exact KeepsFix.trans (K := SeqB f) h (keeps_answer ha) id (by simp)
  · intro sg y ys pos nd rest f s _ ih1 _ s0 h
    trivial

end Verif.Parser.Recovery
