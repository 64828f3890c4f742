import Verif.Proof.FixKept
import Verif.Spec.SinglePath

/-! # What `fix_failed_productions` gets was found without the solver -/

set_option linter.unusedSectionVars false

namespace Verif.Parser.Recovery

open Spec Spec.Recovery

variable {σ τ L T : Type} {eps : T} {ps : List (Production T)} {cand : T → T → List (List T)}
  {tokens : List (Token L T)}

/-- The outcome with another solver state. -/
def setState {α β : Type} (u : τ) : Outcome σ α β → Outcome τ α β
  | .found a _ => .found a u
  | .failed b _ => .failed b u
  | .panicked => .panicked

/-- `A` holds of what was found and `B` of what failed. -/
def Both {α β : Type} (A : α → Prop) (B : β → Prop) : Outcome σ α β → Prop
  | .found a _ => A a
  | .failed b _ => B b
  | .panicked => True

theorem setState_cons {u : τ} {a : Part L T} {r : SeqOutcome σ L T} :
    setState u (r.cons a) = SeqOutcome.cons a (setState u r) := by
  match r with
  | .found _ _ => rfl
  | .failed _ _ => rfl
  | .panicked => rfl

theorem setState_consFailed {u : τ} {a : FailedProduction L T}
    {r : Outcome σ (Derived L T) (List (FailedProduction L T))} :
    setState u (consFailed a r) = consFailed a (setState u r) := by
  match r with
  | .found _ _ => rfl
  | .failed _ _ => rfl
  | .panicked => rfl

theorem both_cons {n : Node L T} {r : SeqOutcome σ L T}
    (h : Both (fun a => ¬ SeqA a) (fun b => ¬ SeqB b) r) :
    Both (fun a => ¬ SeqA a) (fun b => ¬ SeqB b) (r.cons (.ok n)) := by
  match r, h with
  | .found (l, q) _, h =>
    rintro ⟨fs, hf⟩
    simp only [List.mem_cons, reduceCtorEq, false_or] at hf
    exact h ⟨fs, hf⟩
  | .failed (f, l) _, h =>
    rintro (hf | ⟨fs, hf⟩)
    · exact h (.inl hf)
    · simp only [List.mem_cons, reduceCtorEq, false_or] at hf
      exact h (.inr ⟨fs, hf⟩)
  | .panicked, _ => trivial

/-- Off the single path the search does not depend on the solver, nor on its state, and finds no fix. -/
theorem alts_unasked {solver : Option (Solver σ L T)} (solver' : Option (Solver τ L T)) (u : τ) {x : T}
    {pos : Nat} {outs : List (List T)} {s : σ}
    {r : Outcome σ (Derived L T) (List (FailedProduction L T))}
    (h : Alts eps ps cand solver tokens x pos false outs s r) :
    Alts eps ps cand solver' tokens x pos false outs u (setState u r) ∧
      Both (fun d => ¬ IsFix d) (fun b => ¬ AltsB b) r := by
  refine (Alts.rec (eps := eps) (ps := ps) (cand := cand)
    (solver := solver) (tokens := tokens)
    (motive_1 := fun x pos outs sg s r _ => sg = false →
      Choice eps ps cand solver' tokens x pos outs sg u (setState u r) ∧
        Both (fun d => ¬ IsFix d) (fun b => ¬ HasFix b) r)
    (motive_2 := fun x pos sg outs s r _ => sg = false →
      Alts eps ps cand solver' tokens x pos sg outs u (setState u r) ∧
        Both (fun d => ¬ IsFix d) (fun b => ¬ AltsB b) r)
    (motive_3 := fun sg ys q s r _ => sg = false →
      Seq eps ps cand solver' tokens sg ys q u (setState u r) ∧
        Both (fun a => ¬ SeqA a) (fun b => ¬ SeqB b) r)
    (motive_4 := fun sg y ys pos nd rest r0 r1 _ => sg = false →
      Both (fun a => ¬ SeqA a) (fun b => ¬ SeqB b) r0 →
      Resume eps ps cand solver' tokens sg y ys pos nd rest (setState u r0) (setState u r1) ∧
        Both (fun a => ¬ SeqA a) (fun b => ¬ SeqB b) r1)
    ?_ ?_ ?_ ?_ ?_ ?_ ?_ ?_ ?_ ?_ ?_ ?_ ?_ ?_ ?_ ?_ ?_ ?_ ?_ ?_ ?_ ?_ ?_ ?_ ?_ h) rfl
  -- Choice
  · intro x pos outs sg s s' d _ ih hsg
    subst hsg
    exact ⟨.derived _ _ _ _ _ _ _ (ih rfl).1, (ih rfl).2⟩
  · intro x pos outs sg s _ ih hsg
    subst hsg
    exact ⟨.panicked _ _ _ _ _ (ih rfl).1, trivial⟩
  · intro x pos outs sg s s1 s2 fps fr _ ha ih hsg
    subst hsg
    rw [answer_off] at ha
    simp at ha
  · intro x pos outs sg s s1 s2 fps _ ha ih hsg
    subst hsg
    refine ⟨.failed _ _ _ _ _ _ _ _ (ih rfl).1 (answer_off _ _ _ _), fun hf => ?_⟩
    rw [hasFix_iff] at hf
    exact (ih rfl).2 hf
  · intro x pos outs sg s s1 fps e _ ha ih hsg
    subst hsg
    rw [answer_off] at ha
    simp at ha
  -- Alts
  · intro x pos sg s _
    refine ⟨.none _ _ _ _, ?_⟩
    rintro ⟨_, h, _⟩
    cases h
  · intro x pos sg out outs s s' ns q _ ih hsg
    exact ⟨.node _ _ _ _ _ _ _ _ _ (ih hsg).1, fun h => h⟩
  · intro x pos sg out outs s s' l q _ hfx ih hsg
    exact absurd hfx (ih hsg).2
  · intro x pos sg out outs s s' f l r _ _ ih1 ih2 hsg
    rw [setState_consFailed]
    refine ⟨.next _ _ _ _ _ _ _ _ _ _ (ih1 hsg).1 (ih2 hsg).1, ?_⟩
    have h1 := (ih1 hsg).2
    match r, (ih2 hsg).2 with
    | .found _ _, h => exact h
    | .panicked, _ => trivial
    | .failed fps _, h =>
      rintro ⟨fp, hfp, hb⟩
      simp only [List.mem_cons] at hfp
      rcases hfp with rfl | hfp
      · exact h1 hb
      · exact h ⟨fp, hfp, hb⟩
  · intro x pos sg out outs s _ ih hsg
    exact ⟨.panicked _ _ _ _ _ _ (ih hsg).1, trivial⟩
  -- Seq
  · intro sg pos s _
    refine ⟨.nil _ _ _, ?_⟩
    rintro ⟨_, h⟩
    cases h
  · intro sg ys pos s r0 _ ih hsg
    rw [setState_cons]
    exact ⟨.eps _ _ _ _ _ (ih hsg).1, both_cons (ih hsg).2⟩
  · intro sg ys pos s t r0 hy he ht _ ih hsg
    rw [setState_cons]
    exact ⟨.terminal _ _ _ _ _ _ hy he ht (ih hsg).1, both_cons (ih hsg).2⟩
  · intro sg y ys pos s hy he hne _
    refine ⟨.mismatch _ _ _ _ _ hy he hne, ?_⟩
    rintro (h | ⟨_, h⟩)
    · rw [hasFix_iff] at h
      obtain ⟨_, h, _⟩ := h
      cases h
    · cases h
  · intro sg y ys pos s hy ht _
    exact ⟨.runsOut _ _ _ _ _ hy ht, trivial⟩
  · intro sg y ys pos s s1 t nd q rest r0 r1 hy ht _ _ _ ih1 ih2 ih3 hsg
    obtain ⟨h1, h2⟩ := ih3 hsg (ih2 hsg).2
    exact ⟨.nonTerminal _ _ _ _ _ _ _ _ _ _ _ _ hy ht (ih1 hsg).1 (ih2 hsg).1 h1, h2⟩
  · intro sg y ys pos s s1 t fs q r0 hy ht _ _ ih1 ih2 hsg
    exact absurd trivial (ih1 hsg).2
  · intro sg y ys pos s s1 t f hy ht _ ih1 hsg
    refine ⟨.failed _ _ _ _ _ _ _ _ hy ht (ih1 hsg).1, ?_⟩
    rintro (h | ⟨_, h⟩)
    · exact (ih1 hsg).2 h
    · cases h
  · intro sg y ys pos s t hy ht _ ih1 hsg
    exact ⟨.panicked _ _ _ _ _ _ hy ht (ih1 hsg).1, trivial⟩
  -- Resume
  · intro sg y ys pos nd rest l q s _ h
    exact ⟨.found _ _ _ _ _ _ _ _ _, both_cons (r := .found (l, q) s) h⟩
  · intro sg y ys pos nd rest _ _
    exact ⟨.panicked _ _ _ _ _ _, trivial⟩
  · intro sg y ys pos nd nd' rest rest' f s s1 q r0 r1 _ _ _ ih1 ih2 ih3 hsg _
    obtain ⟨h1, h2⟩ := ih3 hsg (ih2 hsg).2
    exact ⟨.again _ _ _ _ _ _ _ _ _ _ _ _ _ _ (ih1 hsg).1 (ih2 hsg).1 h1, h2⟩
  · intro sg y ys pos nd rest f s s1 f' _ ih1 hsg h
    exact ⟨.gaveUp _ _ _ _ _ _ _ _ _ _ (ih1 hsg).1, h⟩
  · intro sg y ys pos nd rest f s s1 fs q _ ih1 hsg h
    exact absurd trivial (ih1 hsg).2
  · intro sg y ys pos nd rest f s _ ih1 hsg _
    exact ⟨.retryPanics _ _ _ _ _ _ _ _ (ih1 hsg).1, trivial⟩

variable {sv : Solver σ L T}

/-- The call is for the last candidates of a symbol on the single path; if there is not exactly one, the
failed productions are those the search without a solver gives, and hold no fix. -/
def CallOk (eps : T) (ps : List (Production T)) (cand : T → T → List (List T))
    (tokens : List (Token L T)) (init : T) (c : LoggedCall L T) : Prop :=
  ∃ t x outs, tokens[c.pos]? = some t ∧ SinglePath cand tokens init x c.pos ∧
    outs.IsSuffix (cand x t.tType) ∧ outs.length = c.failed.length ∧
    (c.failed.length ≠ 1 →
      Alts eps ps cand (none : Option (Solver Unit L T)) tokens x c.pos false outs ()
        (.failed c.failed ()) ∧ ¬ HasFix (.mk c.failed x))

def CallsOk (eps : T) (ps : List (Production T)) (cand : T → T → List (List T))
    (tokens : List (Token L T)) (init : T) (log : List (LoggedCall L T)) : Prop :=
  ∀ c ∈ log, CallOk eps ps cand tokens init c

/-- Good logs stay good; `R` holds of what was found. -/
def AfterC {α β : Type} (eps : T) (ps : List (Production T)) (cand : T → T → List (List T))
    (tokens : List (Token L T)) (init : T) (R : α → Prop) (s : σ × List (LoggedCall L T)) :
    Outcome (σ × List (LoggedCall L T)) α β → Prop
  | .found a s' => (CallsOk eps ps cand tokens init s.2 → CallsOk eps ps cand tokens init s'.2) ∧ R a
  | .failed _ s' => CallsOk eps ps cand tokens init s.2 → CallsOk eps ps cand tokens init s'.2
  | .panicked => True

theorem AfterC.trans {α β : Type} {init : T} {s s1 : σ × List (LoggedCall L T)} {R : α → Prop}
    {r : Outcome (σ × List (LoggedCall L T)) α β}
    (h : CallsOk eps ps cand tokens init s.2 → CallsOk eps ps cand tokens init s1.2)
    (h' : AfterC eps ps cand tokens init R s1 r) : AfterC eps ps cand tokens init R s r := by
  match r, h' with
  | .found _ _, h' => exact ⟨fun g => h'.1 (h g), h'.2⟩
  | .failed _ _, h' => exact fun g => h' (h g)
  | .panicked, _ => trivial

theorem AfterC.cons {init : T} {s : σ × List (LoggedCall L T)} {a : Part L T}
    {r : SeqOutcome (σ × List (LoggedCall L T)) L T}
    (h : AfterC eps ps cand tokens init (fun _ => True) s r) :
    AfterC eps ps cand tokens init (fun _ => True) s (r.cons a) := by
  match r, h with
  | .found (_, _) _, h => exact h
  | .failed (_, _) _, h => exact h
  | .panicked, _ => trivial

/-- The candidates not tried are the last ones. -/
def RestOf (outs : List (List T)) : Derived L T → Prop
  | .node _ _ rest => rest.IsSuffix outs
  | .fixed _ _ => True

/-- What is known of a symbol when it is derived. -/
def At (cand : T → T → List (List T)) (tokens : List (Token L T)) (init x : T) (pos : Nat)
    (outs : List (List T)) (sg : Bool) : Prop :=
  ∃ t, tokens[pos]? = some t ∧ outs.IsSuffix (cand x t.tType) ∧
    (sg = true → SinglePath cand tokens init x pos)

theorem callOk_of_answer {init x : T} {pos : Nat} {outs : List (List T)}
    {s s1 s2 : σ × List (LoggedCall L T)} {fps : List (FailedProduction L T)}
    {o : Option (FixResult L T)} (hat : At cand tokens init x pos outs true)
    (hA : Alts eps ps cand (some (logCalls sv)) tokens x pos (true && decide (outs.length = 1)) outs s
      (.failed fps s1))
    (ha : answer (some (logCalls sv)) tokens pos true fps s1 = .ok (o, s2))
    (hs : CallsOk eps ps cand tokens init s1.2) : CallsOk eps ps cand tokens init s2.2 := by
  rw [answer_log ha]
  intro c hc
  rcases List.mem_append.1 hc with hc | hc
  · exact hs c hc
  simp only [List.mem_singleton] at hc
  subst hc
  obtain ⟨t, ht, hsuf, hsp⟩ := hat
  have hlen := alts_length hA _ _ rfl
  refine ⟨t, x, outs, ht, hsp rfl, hsuf, hlen.symm, fun h1 => ?_⟩
  simp only at h1
  rw [hlen] at h1
  simp only [h1, decide_false, Bool.and_false] at hA
  obtain ⟨h2, h3⟩ := alts_unasked (none : Option (Solver Unit L T)) () hA
  refine ⟨h2, fun h => ?_⟩
  rw [hasFix_iff] at h
  exact h3 h

theorem choice_calls {init : T} {x : T} {pos : Nat}
    {outs : List (List T)} {sg : Bool} {s : σ × List (LoggedCall L T)}
    {r : Outcome (σ × List (LoggedCall L T)) (Derived L T) (FailedSymbol L T)}
    (h : Choice eps ps cand (some (logCalls sv)) tokens x pos outs sg s r)
    (hat : At cand tokens init x pos outs sg) :
    AfterC eps ps cand tokens init (RestOf outs) s r := by
  refine (Choice.rec (eps := eps) (ps := ps) (cand := cand)
    (solver := some (logCalls sv)) (tokens := tokens)
    (motive_1 := fun x pos outs sg s r _ => At cand tokens init x pos outs sg →
      AfterC eps ps cand tokens init (RestOf outs) s r)
    (motive_2 := fun x pos sg outs s r _ =>
      (∃ t, tokens[pos]? = some t ∧ outs.IsSuffix (cand x t.tType) ∧
        (sg = true → SinglePath cand tokens init x pos ∧ outs.length ≤ 1)) →
      AfterC eps ps cand tokens init (RestOf outs) s r)
    (motive_3 := fun sg ys q s r _ => (∀ y ∈ ys, ∀ q, sg = true → SinglePath cand tokens init y q) →
      AfterC eps ps cand tokens init (fun _ => True) s r)
    (motive_4 := fun sg y ys pos nd rest r0 r1 _ => At cand tokens init y pos rest sg →
      (∀ y ∈ ys, ∀ q, sg = true → SinglePath cand tokens init y q) →
      ∀ s, AfterC eps ps cand tokens init (fun _ => True) s r0 →
        AfterC eps ps cand tokens init (fun _ => True) s r1)
    ?_ ?_ ?_ ?_ ?_ ?_ ?_ ?_ ?_ ?_ ?_ ?_ ?_ ?_ ?_ ?_ ?_ ?_ ?_ ?_ ?_ ?_ ?_ ?_ ?_ h) hat
  -- Choice
  · intro x pos outs sg s s' d _ ih ⟨t, ht, hsuf, hsp⟩
    refine ih ⟨t, ht, hsuf, fun h => ?_⟩
    simp only [Bool.and_eq_true, decide_eq_true_eq] at h
    exact ⟨hsp h.1, by omega⟩
  · intro x pos outs sg s _ ih _
    trivial
  · intro x pos outs sg s s1 s2 fps fr hA ha ih hat
    obtain ⟨t, ht, hsuf, hsp⟩ := id hat
    have h1 := ih ⟨t, ht, hsuf, fun h => by
      simp only [Bool.and_eq_true, decide_eq_true_eq] at h
      exact ⟨hsp h.1, by omega⟩⟩
    cases sg with
    | false => rw [answer_off] at ha; simp at ha
    | true => exact ⟨fun g => callOk_of_answer hat hA ha (h1 g), trivial⟩
  · intro x pos outs sg s s1 s2 fps hA ha ih hat
    obtain ⟨t, ht, hsuf, hsp⟩ := id hat
    have h1 := ih ⟨t, ht, hsuf, fun h => by
      simp only [Bool.and_eq_true, decide_eq_true_eq] at h
      exact ⟨hsp h.1, by omega⟩⟩
    cases sg with
    | false =>
      rw [answer_off] at ha
      simp only [Out.ok.injEq, Prod.mk.injEq, true_and] at ha
      subst ha
      exact h1
    | true => exact fun g => callOk_of_answer hat hA ha (h1 g)
  · intro x pos outs sg s s1 fps e _ ha ih _
    trivial
  -- Alts
  · intro x pos sg s _
    exact fun g => g
  · intro x pos sg out outs s s' ns q _ ih ⟨t, ht, hsuf, hsp⟩
    refine ⟨(ih ?_).1, List.suffix_cons _ _⟩
    intro y hy q h
    obtain ⟨h1, h2⟩ := hsp h
    replace h2 : outs = [] := List.length_eq_zero_iff.1 (by simp only [List.length_cons] at h2; omega)
    subst h2
    exact .child x pos t out y q h1 ht hsuf hy
  · intro x pos sg out outs s s' l q _ hfx ih ⟨t, ht, hsuf, hsp⟩
    refine ⟨(ih ?_).1, trivial⟩
    intro y hy q h
    obtain ⟨h1, h2⟩ := hsp h
    replace h2 : outs = [] := List.length_eq_zero_iff.1 (by simp only [List.length_cons] at h2; omega)
    subst h2
    exact .child x pos t out y q h1 ht hsuf hy
  · intro x pos sg out outs s s' f l r _ _ ih1 ih2 ⟨t, ht, hsuf, hsp⟩
    have h1 := ih1 (by
      intro y hy q h
      obtain ⟨h1, h2⟩ := hsp h
      replace h2 : outs = [] := List.length_eq_zero_iff.1 (by simp only [List.length_cons] at h2; omega)
      subst h2
      exact .child x pos t out y q h1 ht hsuf hy)
    have h2 := ih2 ⟨t, ht, (List.suffix_cons _ _).trans hsuf, fun h => ⟨(hsp h).1, by
      have := (hsp h).2
      simp only [List.length_cons] at this
      omega⟩⟩
    have h3 := AfterC.trans h1 h2
    match r, h3 with
    | .found (.node _ _ rest) _, h3 => exact ⟨h3.1, List.IsSuffix.trans h3.2 (List.suffix_cons _ _)⟩
    | .found (.fixed _ _) _, h3 => exact ⟨h3.1, trivial⟩
    | .panicked, _ => trivial
    | .failed _ _, h3 => exact h3
  · intro x pos sg out outs s _ ih _
    trivial
  -- Seq
  · intro sg pos s _
    exact ⟨fun g => g, trivial⟩
  · intro sg ys pos s r0 _ ih hsp
    exact (ih fun y hy => hsp y (List.mem_cons_of_mem _ hy)).cons
  · intro sg ys pos s t r0 hy he ht _ ih hsp
    exact (ih fun y hy => hsp y (List.mem_cons_of_mem _ hy)).cons
  · intro sg y ys pos s hy he hne _
    exact fun g => g
  · intro sg y ys pos s hy ht _
    trivial
  · intro sg y ys pos s s1 t nd q rest r0 r1 hy ht _ _ _ ih1 ih2 ih3 hsp
    have hsp' := fun y hy => hsp y (List.mem_cons_of_mem _ hy)
    have h1 := ih1 ⟨t, ht, List.suffix_rfl, hsp y (by simp) pos⟩
    exact ih3 ⟨t, ht, h1.2, hsp y (by simp) pos⟩ hsp' s (AfterC.trans h1.1 (ih2 hsp'))
  · intro sg y ys pos s s1 t fs q r0 hy ht _ _ ih1 ih2 hsp
    have hsp' := fun y hy => hsp y (List.mem_cons_of_mem _ hy)
    have h1 := ih1 ⟨t, ht, List.suffix_rfl, hsp y (by simp) pos⟩
    exact (AfterC.trans h1.1 (ih2 hsp')).cons
  · intro sg y ys pos s s1 t f hy ht _ ih1 hsp
    exact ih1 ⟨t, ht, List.suffix_rfl, hsp y (by simp) pos⟩
  · intro sg y ys pos s t hy ht _ ih1 _
    trivial
  -- Resume
  · intro sg y ys pos nd rest l q s _ _ s0 h
    exact h
  · intro sg y ys pos nd rest _ _ s0 h
    trivial
  · intro sg y ys pos nd nd' rest rest' f s s1 q r0 r1 _ _ _ ih1 ih2 ih3 hat hsp s0 h
    have h1 := ih1 hat
    obtain ⟨t, ht, hsuf, h2⟩ := hat
    exact ih3 ⟨t, ht, h1.2.trans hsuf, h2⟩ hsp s0 (AfterC.trans (fun g => h1.1 (h g)) (ih2 hsp))
  · intro sg y ys pos nd rest f s s1 f' _ ih1 hat hsp s0 h
    exact fun g => ih1 hat (h g)
  · intro sg y ys pos nd rest f s s1 fs q _ ih1 hat hsp s0 h
    exact fun g => (ih1 hat).1 (h g)
  · intro sg y ys pos nd rest f s _ ih1 _ _ s0 h
    trivial

end Verif.Parser.Recovery
