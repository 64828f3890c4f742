import Verif.Proof.ReportChain
import Verif.Spec.ReportSize

/-! # Without conflicts a declining solver is called at most linearly often -/

set_option linter.unusedSectionVars false

namespace Verif.Parser.Recovery

open Spec Spec.Recovery

variable {σ L T : Type} {eps : T} {ps : List (Production T)} {cand : T → T → List (List T)}
  {tokens : List (Token L T)} {sv : Solver σ L T}

/-- If the calls between the two states were all declined, there are at most `n` of them. -/
def AtMost (s s' : σ × List (LoggedCall L T)) (n : Nat) : Prop :=
  ∃ new, s'.2 = s.2 ++ new ∧ ((∀ c ∈ new, c.fixed = false) → new.length ≤ n)

theorem AtMost.refl {s s' : σ × List (LoggedCall L T)} (h : s'.2 = s.2) : AtMost s s' 0 :=
  ⟨[], by simp [h], fun _ => by simp⟩

theorem AtMost.trans {s s1 s2 : σ × List (LoggedCall L T)} {c1 c2 c : Nat}
    (h1 : AtMost s s1 c1) (h2 : AtMost s1 s2 c2) (hc : c1 + c2 ≤ c) : AtMost s s2 c := by
  obtain ⟨n1, e1, f1⟩ := h1
  obtain ⟨n2, e2, f2⟩ := h2
  refine ⟨n1 ++ n2, by rw [e2, e1, List.append_assoc], fun h => ?_⟩
  have a := f1 fun c hc => h c (List.mem_append_left _ hc)
  have b := f2 fun c hc => h c (List.mem_append_right _ hc)
  rw [List.length_append]
  omega

theorem AtMost.mono {s s' : σ × List (LoggedCall L T)} {c1 c : Nat} (h : AtMost s s' c1) (hc : c1 ≤ c) :
    AtMost s s' c := h.trans (.refl rfl) (by omega)

theorem SomeFix.atMost {s s1 s2 : σ × List (LoggedCall L T)} (h1 : SomeFix s s1) (h2 : Grows s1 s2)
    (n : Nat) : AtMost s s2 n := by
  obtain ⟨n1, e1, c, hc, hf⟩ := h1
  obtain ⟨n2, e2⟩ := h2
  refine ⟨n1 ++ n2, by rw [e2, e1, List.append_assoc], fun h => ?_⟩
  have := h c (List.mem_append_left _ hc)
  simp [hf] at this

theorem AtMost.grows {s s' : σ × List (LoggedCall L T)} {n : Nat} (h : AtMost s s' n) : Grows s s' := by
  obtain ⟨n, e, _⟩ := h
  exact ⟨n, e⟩

theorem atMost_answer {pos : Nat} {s s1 : σ × List (LoggedCall L T)}
    {fps : List (FailedProduction L T)} {o : Option (FixResult L T)}
    (ha : answer (some (logCalls sv)) tokens pos true fps s = .ok (o, s1)) : AtMost s s1 1 :=
  ⟨[⟨pos, fps, o.isSome⟩], answer_log ha, fun _ => by simp⟩

def ChoiceAtMost (m : Nat) (s : σ × List (LoggedCall L T)) :
    Outcome (σ × List (LoggedCall L T)) (Derived L T) (FailedSymbol L T) → Prop
  | .failed f s' => AtMost s s' (m * reportSize f)
  | _ => True

def AltsAtMost (m : Nat) (s : σ × List (LoggedCall L T)) :
    Outcome (σ × List (LoggedCall L T)) (Derived L T) (List (FailedProduction L T)) → Prop
  | .failed fps s' => AtMost s s' (m * reportSizeList fps + (m - 1))
  | _ => True

/-- `k` symbols are searched. -/
def SeqAtMost (m k : Nat) (s : σ × List (LoggedCall L T)) :
    SeqOutcome (σ × List (LoggedCall L T)) L T → Prop
  | .failed (f, _) s' => 0 < k ∧ AtMost s s' (m * reportSize f + (k - 1))
  | _ => True

theorem SeqAtMost.cons {m k : Nat} {s : σ × List (LoggedCall L T)} {a : Part L T}
    {r : SeqOutcome (σ × List (LoggedCall L T)) L T} (h : SeqAtMost m k s r) :
    SeqAtMost m (k + 1) s (r.cons a) := by
  match r, h with
  | .found (_, _) _, _ => trivial
  | .failed (_, _) _, h => exact ⟨by omega, h.2.mono (by omega)⟩
  | .panicked, _ => trivial

theorem choice_atMost {m : Nat} (hm : 0 < m) (hcf : ∀ x a, (cand x a).length ≤ 1)
    (hout : ∀ x a, ∀ o ∈ cand x a, o.length ≤ m) {x : T} {pos : Nat}
    {outs : List (List T)} {s : σ × List (LoggedCall L T)}
    {r : Outcome (σ × List (LoggedCall L T)) (Derived L T) (FailedSymbol L T)}
    (h : Choice eps ps cand (some (logCalls sv)) tokens x pos outs true s r) (hlen : outs.length ≤ 1)
    (houts : ∀ o ∈ outs, o.length ≤ m) : ChoiceAtMost m s r := by
  refine (Choice.rec (eps := eps) (ps := ps) (cand := cand)
    (solver := some (logCalls sv)) (tokens := tokens)
    (motive_1 := fun x pos outs sg s r _ => outs.length ≤ 1 → (∀ o ∈ outs, o.length ≤ m) → sg = true →
      ChoiceAtMost m s r)
    (motive_2 := fun x pos sg outs s r _ => outs.length ≤ 1 → (∀ o ∈ outs, o.length ≤ m) →
      (outs ≠ [] → sg = true) → AltsAtMost m s r)
    (motive_3 := fun sg ys q s r _ => sg = true → SeqAtMost m ys.length s r)
    (motive_4 := fun sg y ys pos nd rest r0 r1 _ => rest = [] → sg = true →
      ∀ s k, SeqAtMost m k s r0 → SeqAtMost m (k + 1) s r1)
    ?_ ?_ ?_ ?_ ?_ ?_ ?_ ?_ ?_ ?_ ?_ ?_ ?_ ?_ ?_ ?_ ?_ ?_ ?_ ?_ ?_ ?_ ?_ ?_ ?_ h) hlen houts rfl
  -- Choice
  · intro x pos outs sg s s' d _ ih hl _ hsg
    trivial
  · intro x pos outs sg s _ ih hl _ hsg
    trivial
  · intro x pos outs sg s s1 s2 fps fr hA ha ih hl _ hsg
    trivial
  · intro x pos outs sg s s1 s2 fps hA ha ih hl ho hsg
    have := ih hl ho (by
      intro hne
      have : outs.length ≠ 0 := by simpa using hne
      simp [hsg, show outs.length = 1 by omega])
    subst hsg
    show AtMost s s2 (m * reportSize (.mk fps x))
    rw [reportSize, Nat.mul_add]
    exact AtMost.trans this (atMost_answer ha) (by omega)
  · intro x pos outs sg s s1 fps e _ ha ih hl _ hsg
    trivial
  -- Alts
  · intro x pos sg s _ _ _
    exact (AtMost.refl rfl).mono (by omega)
  · intro x pos sg out outs s s' ns q _ ih _ _ hsg
    trivial
  · intro x pos sg out outs s s' l q _ hfx ih _ _ hsg
    trivial
  · intro x pos sg out outs s s' f l r _ hA ih1 ih2 hl ho hsg
    have hos : outs = [] := by simp at hl; exact hl
    subst hos
    cases hA
    have h1 : AtMost s s' (m * reportSize f + (out.length - 1)) := (ih1 (hsg (by simp))).2
    have h2 := ho out (by simp)
    show AtMost s s' (m * reportSizeList [.mk f l _] + (m - 1))
    rw [reportSizeList, reportSizeProduction, reportSizeList, Nat.add_zero]
    exact h1.mono (by omega)
  · intro x pos sg out outs s _ ih _ _ _
    trivial
  -- Seq
  · intro sg pos s _
    trivial
  · intro sg ys pos s r0 _ ih hsg
    exact (ih hsg).cons
  · intro sg ys pos s t r0 hy he ht _ ih hsg
    exact (ih hsg).cons
  · intro sg y ys pos s hy he hne _
    exact ⟨by simp, (AtMost.refl rfl).mono (by omega)⟩
  · intro sg y ys pos s hy ht _
    trivial
  · intro sg y ys pos s s1 t nd q rest r0 r1 hy ht hC _ _ _ ih2 ih3 hsg
    refine ih3 (choice_noRest (hcf _ _) hC).2 hsg s _ ?_
    subst hsg
    have he : s1.2 = s.2 := choice_ends hcf hC (hcf _ _)
    match r0, ih2 rfl with
    | .found _ _, _ => trivial
    | .failed (_, _) _, h => exact ⟨h.1, AtMost.trans (AtMost.refl he) h.2 (by omega)⟩
    | .panicked, _ => trivial
  · intro sg y ys pos s s1 t fs q r0 hy ht hC _ _ ih2 hsg
    subst hsg
    have he : Ends true s s1 := choice_ends hcf hC (hcf _ _)
    match r0, ih2 rfl with
    | .found (_, _) _, _ => trivial
    | .failed (_, _) _, h => exact ⟨by simp, he.someFix.atMost (AtMost.grows h.2) _⟩
    | .panicked, _ => trivial
  · intro sg y ys pos s s1 t f hy ht _ ih1 hsg
    exact ⟨by simp, AtMost.mono (ih1 (hcf _ _) (hout _ _) hsg) (by omega)⟩
  · intro sg y ys pos s t hy ht _ ih1 _
    trivial
  -- Resume
  · intro sg y ys pos nd rest l q s _ _ s0 k h
    trivial
  · intro sg y ys pos nd rest _ _ s0 k h
    trivial
  · intro sg y ys pos nd nd' rest rest' f s s1 q r0 r1 hC _ _ ih1 ih2 ih3 hr hsg s0 k h
    subst hr
    exact absurd rfl (choice_noRest (by simp) hC).1
  · intro sg y ys pos nd rest f s s1 f' hC ih1 hr hsg s0 k h
    subst hr
    subst hsg
    have h1 : AtMost s s1 1 := by
      cases hC with
      | failed _ _ _ _ _ s2 _ fps hA ha =>
        cases hA
        exact atMost_answer ha
    have h2 : 0 < k ∧ AtMost s0 s (m * reportSize f.1 + (k - 1)) := h
    exact ⟨by omega, h2.2.trans h1 (by omega)⟩
  · intro sg y ys pos nd rest f s s1 fs q hC ih1 hr hsg s0 k h
    subst hr
    subst hsg
    have he : Ends true s s1 := choice_ends hcf hC (by simp)
    have hg : 0 < k ∧ AtMost s0 s (m * reportSize f.1 + (k - 1)) := h
    refine ⟨by omega, ?_⟩
    show AtMost s0 s1 _
    obtain ⟨n, e, _⟩ := hg.2
    obtain ⟨n', c, e', hc⟩ := he
    refine ⟨n ++ (n' ++ [c]), by rw [e', e, List.append_assoc], fun hall => ?_⟩
    have := hall c (by simp)
    simp [hc] at this
  · intro sg y ys pos nd rest f s _ ih1 _ _ s0 k h
    trivial

end Verif.Parser.Recovery
