import Verif.Proof.LastAnswer
import Verif.Spec.ReportChain

/-! # Without conflicts a declining solver is shown the failures of the report -/

set_option linter.unusedSectionVars false

namespace Verif.Parser.Recovery

open Spec Spec.Recovery

variable {σ L T : Type} {eps : T} {ps : List (Production T)} {cand : T → T → List (List T)}
  {tokens : List (Token L T)} {sv : Solver σ L T}

/-- The failed productions of the calls that have some. -/
def shown (log : List (LoggedCall L T)) : List (List (FailedProduction L T)) :=
  (log.filter fun c => !c.failed.isEmpty).map (·.failed)

/-- If the calls between the two states were all declined, they showed `ch`. -/
def Says (s s' : σ × List (LoggedCall L T)) (ch : List (List (FailedProduction L T))) : Prop :=
  ∃ new, s'.2 = s.2 ++ new ∧ ((∀ c ∈ new, c.fixed = false) → shown new = ch)

theorem Says.refl {s s' : σ × List (LoggedCall L T)} (h : s'.2 = s.2) : Says s s' [] :=
  ⟨[], by simp [h], fun _ => rfl⟩

theorem Says.trans {s s1 s2 : σ × List (LoggedCall L T)} {c1 c2 : List (List (FailedProduction L T))}
    (h1 : Says s s1 c1) (h2 : Says s1 s2 c2) : Says s s2 (c1 ++ c2) := by
  obtain ⟨n1, e1, f1⟩ := h1
  obtain ⟨n2, e2, f2⟩ := h2
  refine ⟨n1 ++ n2, by rw [e2, e1, List.append_assoc], fun h => ?_⟩
  rw [← f1 fun c hc => h c (List.mem_append_left _ hc), ← f2 fun c hc => h c (List.mem_append_right _ hc)]
  simp [shown]

/-- A fix was returned. -/
def SomeFix (s s' : σ × List (LoggedCall L T)) : Prop :=
  ∃ new, s'.2 = s.2 ++ new ∧ ∃ c ∈ new, c.fixed = true

theorem SomeFix.says {s s1 s2 : σ × List (LoggedCall L T)} (h1 : SomeFix s s1) (h2 : Grows s1 s2)
    (ch : List (List (FailedProduction L T))) : Says s s2 ch := by
  obtain ⟨n1, e1, c, hc, hf⟩ := h1
  obtain ⟨n2, e2⟩ := h2
  refine ⟨n1 ++ n2, by rw [e2, e1, List.append_assoc], fun h => ?_⟩
  have := h c (List.mem_append_left _ hc)
  simp [hf] at this

theorem Ends.someFix {s s' : σ × List (LoggedCall L T)} (h : Ends true s s') : SomeFix s s' := by
  obtain ⟨n, c, e, hc⟩ := h
  exact ⟨_, e, c, by simp, hc⟩

theorem Says.grows {s s' : σ × List (LoggedCall L T)} {ch : List (List (FailedProduction L T))}
    (h : Says s s' ch) : Grows s s' := by
  obtain ⟨n, e, _⟩ := h
  exact ⟨n, e⟩

theorem says_answer {pos : Nat} {s s1 : σ × List (LoggedCall L T)}
    {fps : List (FailedProduction L T)} {o : Option (FixResult L T)}
    (ha : answer (some (logCalls sv)) tokens pos true fps s = .ok (o, s1)) :
    Says s s1 (if fps.isEmpty then [] else [fps]) := by
  refine ⟨[⟨pos, fps, o.isSome⟩], answer_log ha, fun _ => ?_⟩
  cases fps <;> simp [shown]

def ChoiceSays (s : σ × List (LoggedCall L T)) :
    Outcome (σ × List (LoggedCall L T)) (Derived L T) (FailedSymbol L T) → Prop
  | .failed f s' => Says s s' (reportChain f)
  | _ => True

def AltsSays (s : σ × List (LoggedCall L T)) :
    Outcome (σ × List (LoggedCall L T)) (Derived L T) (List (FailedProduction L T)) → Prop
  | .failed fps s' => Says s s' (reportChainList fps)
  | _ => True

def SeqSays (s : σ × List (LoggedCall L T)) : SeqOutcome (σ × List (LoggedCall L T)) L T → Prop
  | .failed (f, _) s' => Says s s' (reportChain f)
  | _ => True

theorem SeqSays.cons {s : σ × List (LoggedCall L T)} {a : Part L T}
    {r : SeqOutcome (σ × List (LoggedCall L T)) L T} (h : SeqSays s r) : SeqSays s (r.cons a) := by
  match r, h with
  | .found (_, _) _, _ => trivial
  | .failed (_, _) _, h => exact h
  | .panicked, _ => trivial

theorem choice_says (hcf : ∀ x a, (cand x a).length ≤ 1) {x : T} {pos : Nat}
    {outs : List (List T)} {s : σ × List (LoggedCall L T)}
    {r : Outcome (σ × List (LoggedCall L T)) (Derived L T) (FailedSymbol L T)}
    (h : Choice eps ps cand (some (logCalls sv)) tokens x pos outs true s r) (hlen : outs.length ≤ 1) :
    ChoiceSays s r := by
  refine (Choice.rec (eps := eps) (ps := ps) (cand := cand)
    (solver := some (logCalls sv)) (tokens := tokens)
    (motive_1 := fun x pos outs sg s r _ => outs.length ≤ 1 → sg = true → ChoiceSays s r)
    (motive_2 := fun x pos sg outs s r _ => outs.length ≤ 1 → (outs ≠ [] → sg = true) → AltsSays s r)
    (motive_3 := fun sg ys q s r _ => sg = true → SeqSays s r)
    (motive_4 := fun sg y ys pos nd rest r0 r1 _ => rest = [] → sg = true →
      ∀ s, SeqSays s r0 → SeqSays s r1)
    ?_ ?_ ?_ ?_ ?_ ?_ ?_ ?_ ?_ ?_ ?_ ?_ ?_ ?_ ?_ ?_ ?_ ?_ ?_ ?_ ?_ ?_ ?_ ?_ ?_ h) hlen rfl
  -- Choice
  · intro x pos outs sg s s' d _ ih hl hsg
    trivial
  · intro x pos outs sg s _ ih hl hsg
    trivial
  · intro x pos outs sg s s1 s2 fps fr hA ha ih hl hsg
    trivial
  · intro x pos outs sg s s1 s2 fps hA ha ih hl hsg
    have := ih hl (by
      intro hne
      have : outs.length ≠ 0 := by simpa using hne
      simp [hsg, show outs.length = 1 by omega])
    subst hsg
    show Says s s2 (reportChain (.mk fps x))
    rw [reportChain]
    exact Says.trans this (says_answer ha)
  · intro x pos outs sg s s1 fps e _ ha ih hl hsg
    trivial
  -- Alts
  · intro x pos sg s _ _
    exact Says.refl rfl
  · intro x pos sg out outs s s' ns q _ ih _ hsg
    trivial
  · intro x pos sg out outs s s' l q _ hfx ih _ hsg
    trivial
  · intro x pos sg out outs s s' f l r _ hA ih1 ih2 hl hsg
    have hos : outs = [] := by simp at hl; exact hl
    subst hos
    cases hA
    have h1 : Says s s' (reportChain f) := ih1 (hsg (by simp))
    show Says s s' (reportChainList [.mk f l _])
    rw [reportChainList, reportChainProduction, reportChainList, List.append_nil]
    exact h1
  · intro x pos sg out outs s _ ih _ _
    trivial
  -- Seq
  · intro sg pos s _
    trivial
  · intro sg ys pos s r0 _ ih hsg
    exact (ih hsg).cons
  · intro sg ys pos s t r0 hy he ht _ ih hsg
    exact (ih hsg).cons
  · intro sg y ys pos s hy he hne _
    show Says s s (reportChain (.mk [] y))
    simpa [reportChain, reportChainList] using Says.refl (s := s) (s' := s) rfl
  · intro sg y ys pos s hy ht _
    trivial
  · intro sg y ys pos s s1 t nd q rest r0 r1 hy ht hC _ _ _ ih2 ih3 hsg
    refine ih3 (choice_noRest (hcf _ _) hC).2 hsg s ?_
    subst hsg
    have he : s1.2 = s.2 := choice_ends hcf hC (hcf _ _)
    match r0, ih2 rfl with
    | .found _ _, _ => trivial
    | .failed (_, _) _, h => exact Says.trans (c1 := []) (Says.refl he) h
    | .panicked, _ => trivial
  · intro sg y ys pos s s1 t fs q r0 hy ht hC _ _ ih2 hsg
    subst hsg
    have he : Ends true s s1 := choice_ends hcf hC (hcf _ _)
    match r0, ih2 rfl with
    | .found (_, _) _, _ => trivial
    | .failed (_, _) _, h => exact he.someFix.says (Says.grows h) _
    | .panicked, _ => trivial
  · intro sg y ys pos s s1 t f hy ht _ ih1 hsg
    exact ih1 (hcf _ _) hsg
  · intro sg y ys pos s t hy ht _ ih1 _
    trivial
  -- Resume
  · intro sg y ys pos nd rest l q s _ _ s0 h
    trivial
  · intro sg y ys pos nd rest _ _ s0 h
    trivial
  · intro sg y ys pos nd nd' rest rest' f s s1 q r0 r1 hC _ _ ih1 ih2 ih3 hr hsg s0 h
    subst hr
    exact absurd rfl (choice_noRest (by simp) hC).1
  · intro sg y ys pos nd rest f s s1 f' hC ih1 hr hsg s0 h
    subst hr
    have hf := choice_nil_failed hC
    have h1 : Says s s1 (reportChain f') := ih1 (by simp) hsg
    obtain ⟨fps, z⟩ := f'
    simp only [FailedSymbol.failedProductions] at hf
    subst hf
    simp only [reportChain, reportChainList, List.isEmpty_nil, if_true, List.append_nil] at h1
    have := Says.trans (show Says s0 s (reportChain f.1) from h) h1
    rw [List.append_nil] at this
    exact this
  · intro sg y ys pos nd rest f s s1 fs q hC ih1 hr hsg s0 h
    subst hr
    subst hsg
    have he : Ends true s s1 := choice_ends hcf hC (by simp)
    have hg : Says s0 s (reportChain f.1) := h
    show Says s0 s1 (reportChain f.1)
    obtain ⟨n, e, _⟩ := hg
    obtain ⟨m, c, e', hc⟩ := he
    refine ⟨n ++ (m ++ [c]), by rw [e', e, List.append_assoc], fun hall => ?_⟩
    have := hall c (by simp)
    simp [hc] at this
  · intro sg y ys pos nd rest f s _ ih1 _ _ s0 h
    trivial

end Verif.Parser.Recovery
