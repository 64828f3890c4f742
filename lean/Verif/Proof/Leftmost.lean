import Verif.Proof.LL1
import Verif.Spec.Leftmost
import Verif.Spec.Reduced
import Verif.Spec.Viable

/-! # Leftmost derivations that read an input, and the search of C24 -/

set_option linter.unusedSectionVars false

namespace Verif.Parser

open Spec

variable {σ L T : Type} [DecidableEq T] {eps init : T} {ps : List (Production T)}
  {p : Parser σ L T} {tokens : List (Token L T)}

/-! ## Runs -/

theorem _root_.Verif.Spec.Run.trans {w st w' st' w'' st'' : List T} (h1 : Run eps ps w st w' st')
    (h2 : Run eps ps w' st' w'' st'') : Run eps ps w st w'' st'' := by
  induction h1 with
  | refl => exact h2
  | skip w st w' st' _ ih => exact .skip _ _ _ _ (ih h2)
  | read a w st w' st' hnt hne _ ih => exact .read _ _ _ _ _ hnt hne (ih h2)
  | expand q w st w' st' hq hw _ ih => exact .expand q _ _ _ _ hq hw (ih h2)

theorem Run.append {w st w' st' : List T} (h : Run eps ps w st w' st') (g : List T) :
    Run eps ps w (st ++ g) w' (st' ++ g) := by
  induction h with
  | refl => exact .refl _ _
  | skip w st w' st' _ ih => exact .skip _ _ _ _ ih
  | read a w st w' st' hnt hne _ ih => exact .read _ _ _ _ _ hnt hne ih
  | expand q w st w' st' hq hw _ ih => exact .expand q _ _ _ _ hq hw (by simpa using ih)

/-- The symbols of a form other than `eps`. -/
def strip (eps : T) (l : List T) : List T := l.filter (fun x => decide (x ≠ eps))

theorem strip_cons_self {l : List T} : strip eps (eps :: l) = strip eps l := by simp [strip]

theorem strip_cons_ne {x : T} {l : List T} (h : x ≠ eps) : strip eps (x :: l) = x :: strip eps l := by
  simp [strip, h]

theorem strip_append {a b : List T} : strip eps (a ++ b) = strip eps a ++ strip eps b := by
  simp [strip]

theorem strip_eq_self {l : List T} (h : eps ∉ l) : strip eps l = l := by
  unfold strip
  rw [List.filter_eq_self]
  intro a ha
  simp only [ne_eq, decide_not, Bool.not_eq_eq_eq_not, Bool.not_true, decide_eq_false_iff_not]
  rintro rfl
  exact h ha

theorem strip_output (hw : WellFormed eps ps) {q : Production T} (hq : q ∈ ps) :
    strip eps q.output = rhs eps q := by
  unfold rhs
  split
  · rename_i ho; rw [ho]; simp [strip]
  · rename_i ho
    apply strip_eq_self
    intro hm
    obtain ⟨y, hy⟩ := List.length_eq_one_iff.1 ((hw q hq).2.2 hm)
    rw [hy] at hm ho
    simp at hm
    simp [hm] at ho

/-- A run is a derivation. -/
theorem Run.derives (hwf : WellFormed eps ps) {w st w' st' : List T} (h : Run eps ps w st w' st') :
    ∃ u, w = u ++ w' ∧ Derives eps ps (strip eps st) (u ++ strip eps st') := by
  induction h with
  | refl w st => exact ⟨[], rfl, .refl _⟩
  | skip w st w' st' _ ih => rw [strip_cons_self]; exact ih
  | read a w st w' st' hnt hne _ ih =>
    obtain ⟨u, rfl, hd⟩ := ih
    refine ⟨a :: u, rfl, ?_⟩
    rw [strip_cons_ne hne]
    have := hd.context [a] []
    simpa using this
  | expand q w st w' st' hq hw _ ih =>
    obtain ⟨u, hu, hd⟩ := ih
    refine ⟨u, hu, ?_⟩
    rw [strip_cons_ne (hwf q hq).1]
    rw [strip_append, strip_output hwf hq] at hd
    have := (Derives.of_production (eps := eps) hq).context [] (strip eps st)
    simp only [List.nil_append, List.cons_append] at this
    exact this.trans hd

/-- The symbols a run reads are terminals. -/
theorem Run.terminals {w st w' st' : List T} (h : Run eps ps w st w' st')
    (hst : ∀ y ∈ st, ¬ IsNonTerminal ps y → ∃ q ∈ ps, y ∈ q.output) :
    (∃ u, w = u ++ w' ∧ ∀ a ∈ u, IsTerminal ps a ∧ a ≠ eps) ∧
      ∀ y ∈ st', ¬ IsNonTerminal ps y → ∃ q ∈ ps, y ∈ q.output := by
  induction h with
  | refl w st => exact ⟨⟨[], rfl, by simp⟩, hst⟩
  | skip w st w' st' _ ih => exact ih fun y hy => hst y (by simp [hy])
  | read a w st w' st' hnt hne _ ih =>
    obtain ⟨⟨u, rfl, hu⟩, h2⟩ := ih fun y hy => hst y (by simp [hy])
    refine ⟨⟨a :: u, rfl, ?_⟩, h2⟩
    intro b hb
    rcases List.mem_cons.1 hb with rfl | hb
    · exact ⟨⟨hst b (by simp) hnt, hnt⟩, hne⟩
    · exact hu b hb
  | expand q w st w' st' hq hw _ ih =>
    refine ih ?_
    intro y hy hnt
    rcases List.mem_append.1 hy with hy | hy
    · exact ⟨q, hq, hy⟩
    · exact hst y (by simp [hy]) hnt

/-- What is next in the input can start the symbols to derive. -/
theorem Run.strFirst (hwf : WellFormed eps ps) {t : T} {w st st' : List T}
    (h : Run eps ps (t :: w) st [] st')
    (hst : ∀ y ∈ st, ¬ IsNonTerminal ps y → ∃ q ∈ ps, y ∈ q.output) :
    StrFirst eps ps (strip eps st) t ∧ IsTerminal ps t ∧ t ≠ eps := by
  obtain ⟨u, hu, hd⟩ := Run.derives hwf h
  obtain ⟨⟨u', hu', ht⟩, _⟩ := Run.terminals h hst
  simp only [List.append_nil] at hu hu'
  subst hu
  have := ht t (by rw [← hu']; simp)
  exact ⟨strFirst_of_derives this.1 this.2 hd, this⟩

/-! ## Runs with a length -/

/-- A run of at most so many steps. -/
inductive RunN (eps : T) (ps : List (Production T)) :
    Nat → List T → List T → List T → List T → Prop where
  | refl (n : Nat) (w st : List T) : RunN eps ps n w st w st
  | skip (n : Nat) (w st w' st' : List T) : RunN eps ps n w st w' st' →
      RunN eps ps (n + 1) w (eps :: st) w' st'
  | read (n : Nat) (a : T) (w st w' st' : List T) : ¬ IsNonTerminal ps a → a ≠ eps →
      RunN eps ps n w st w' st' → RunN eps ps (n + 1) (a :: w) (a :: st) w' st'
  | expand (n : Nat) (q : Production T) (w st w' st' : List T) : q ∈ ps → w ≠ [] →
      RunN eps ps n w (q.output ++ st) w' st' → RunN eps ps (n + 1) w (q.input :: st) w' st'

theorem RunN.of_run {w st w' st' : List T} (h : Run eps ps w st w' st') :
    ∃ n, RunN eps ps n w st w' st' := by
  induction h with
  | refl => exact ⟨0, .refl _ _ _⟩
  | skip w st w' st' _ ih => obtain ⟨n, hn⟩ := ih; exact ⟨_, .skip _ _ _ _ _ hn⟩
  | read a w st w' st' hnt hne _ ih => obtain ⟨n, hn⟩ := ih; exact ⟨_, .read _ _ _ _ _ _ hnt hne hn⟩
  | expand q w st w' st' hq hw _ ih => obtain ⟨n, hn⟩ := ih; exact ⟨_, .expand _ q _ _ _ _ hq hw hn⟩

theorem RunN.run {n : Nat} {w st w' st' : List T} (h : RunN eps ps n w st w' st') :
    Run eps ps w st w' st' := by
  induction h with
  | refl => exact .refl _ _
  | skip _ w st w' st' _ ih => exact .skip _ _ _ _ ih
  | read _ a w st w' st' hnt hne _ ih => exact .read _ _ _ _ _ hnt hne ih
  | expand _ q w st w' st' hq hw _ ih => exact .expand q _ _ _ _ hq hw ih

/-! ## From the search to runs -/

/-- The types of the tokens from a position on. -/
def typesFrom (tokens : List (Token L T)) (i : Nat) : List T := (tokens.drop i).map (·.tType)

theorem typesFrom_cons {i : Nat} {t : Token L T} (h : tokens[i]? = some t) :
    typesFrom tokens i = t.tType :: typesFrom tokens (i + 1) := by
  obtain ⟨hi, rfl⟩ := List.getElem?_eq_some_iff.1 h
  unfold typesFrom
  rw [List.drop_eq_getElem_cons hi]
  rfl

theorem typesFrom_none {i : Nat} (h : tokens[i]? = none) : typesFrom tokens i = [] := by
  unfold typesFrom
  rw [List.drop_eq_nil_of_le (List.getElem?_eq_none_iff.1 h)]
  rfl

/-- What a search for symbols says about runs. -/
def SeqRun (eps : T) (ps : List (Production T)) (tokens : List (Token L T)) (xs : List T) (pos : Nat) :
    Search (List (Node L T) × Nat) → Prop
  | .found (_, q) => Run eps ps (typesFrom tokens pos) xs (typesFrom tokens q) []
  | .failed => True
  | .ranOut => ∃ x st, IsNonTerminal ps x ∧ Run eps ps (typesFrom tokens pos) xs [] (x :: st)

/-- What a search for a non-terminal says about runs. -/
def ChoiceRun (eps : T) (ps : List (Production T)) (tokens : List (Token L T)) (pos : Nat)
    (outs : List (List T)) : Search (Node L T × Nat × List (List T)) → Prop
  | .found (_, q, rest) => (∃ out ∈ outs, Run eps ps (typesFrom tokens pos) out (typesFrom tokens q) []) ∧
      ∀ o ∈ rest, o ∈ outs
  | .failed => True
  | .ranOut => ∃ out ∈ outs, ∃ x st, IsNonTerminal ps x ∧
      Run eps ps (typesFrom tokens pos) out [] (x :: st)

/-- What a search for a non-terminal and what stands behind it says about runs. -/
def RetryRun (eps : T) (ps : List (Production T)) (tokens : List (Token L T)) (xs : List T) (pos : Nat)
    (outs : List (List T)) : Search (List (Node L T) × Nat) → Prop
  | .found (_, q) => ∃ out ∈ outs, Run eps ps (typesFrom tokens pos) (out ++ xs) (typesFrom tokens q) []
  | .failed => True
  | .ranOut => ∃ out ∈ outs, ∃ x st, IsNonTerminal ps x ∧
      Run eps ps (typesFrom tokens pos) (out ++ xs) [] (x :: st)

theorem choice_run {cand : T → T → List (List T)}
    (hcand : ∀ x a out, out ∈ cand x a → (⟨x, out⟩ : Production T) ∈ ps) {x : T} {pos : Nat}
    {outs : List (List T)} {r : Search (Node L T × Nat × List (List T))}
    (h : Choice eps ps cand tokens x pos outs r) : ChoiceRun eps ps tokens pos outs r := by
  refine Choice.rec (eps := eps) (ps := ps) (cand := cand) (tokens := tokens)
    (motive_1 := fun _ pos outs r _ => ChoiceRun eps ps tokens pos outs r)
    (motive_2 := fun xs pos r _ => SeqRun eps ps tokens xs pos r)
    (motive_3 := fun _ xs pos outs r _ => RetryRun eps ps tokens xs pos outs r)
    ?_ ?_ ?_ ?_ ?_ ?_ ?_ ?_ ?_ ?_ ?_ ?_ ?_ ?_ ?_ h
  -- Choice
  · intro x pos; trivial
  · intro x pos out outs ns q _ ih
    exact ⟨⟨out, by simp, ih⟩, fun o ho => by simp [ho]⟩
  · intro x pos out outs r _ _ _ ih
    match r, ih with
    | .found (_, q, rest), ⟨⟨o, ho, hr⟩, h2⟩ =>
      exact ⟨⟨o, by simp [ho], hr⟩, fun o ho => by simp [h2 o ho]⟩
    | .failed, _ => trivial
    | .ranOut, ⟨o, ho, hr⟩ => exact ⟨o, by simp [ho], hr⟩
  · intro x pos out outs _ ih
    exact ⟨out, by simp, ih⟩
  -- Seq
  · intro pos; exact .refl _ _
  · intro xs pos r _ ih
    match r, ih with
    | .found (ns, q), ih => exact .skip _ _ _ _ ih
    | .failed, _ => trivial
    | .ranOut, ⟨x, st, hx, ih⟩ => exact ⟨x, st, hx, .skip _ _ _ _ ih⟩
  · intro xs pos t r hnt hne ht _ ih
    match r, ih with
    | .found (ns, q), ih =>
      change Run eps ps (typesFrom tokens pos) _ _ _
      rw [typesFrom_cons ht]
      exact .read _ _ _ _ _ hnt hne ih
    | .failed, _ => trivial
    | .ranOut, ⟨x, st, hx, ih⟩ =>
      refine ⟨x, st, hx, ?_⟩
      rw [typesFrom_cons ht]
      exact .read _ _ _ _ _ hnt hne ih
  · intro x xs pos _ _ _; trivial
  · intro x xs pos t r hx ht _ ih
    have hne : typesFrom tokens pos ≠ [] := by rw [typesFrom_cons ht]; simp
    match r, ih with
    | .found (ns, q), ⟨out, ho, ih⟩ => exact .expand ⟨x, out⟩ _ _ _ _ (hcand _ _ _ ho) hne ih
    | .failed, _ => trivial
    | .ranOut, ⟨out, ho, y, st, hy, ih⟩ =>
      exact ⟨y, st, hy, .expand ⟨x, out⟩ _ _ _ _ (hcand _ _ _ ho) hne ih⟩
  · intro x xs pos hx hn
    refine ⟨x, xs, hx, ?_⟩
    rw [typesFrom_none hn]
    exact .refl _ _
  -- Retry
  · intro x xs pos outs _ _; trivial
  · rintro x xs pos outs _ ⟨out, ho, y, st, hy, ih⟩
    exact ⟨out, ho, y, st ++ xs, hy, by simpa using Run.append ih xs⟩
  · rintro x xs pos outs rest n q q' ns _ _ ⟨⟨out, ho, h1⟩, _⟩ h2
    exact ⟨out, ho, (by simpa using Run.append h1 xs : Run eps ps _ _ _ xs).trans h2⟩
  · rintro x xs pos outs rest n q r _ _ _ ⟨_, h1⟩ _ h3
    match r, h3 with
    | .found (ns, q), ⟨out, ho, ih⟩ => exact ⟨out, h1 _ ho, ih⟩
    | .failed, _ => trivial
    | .ranOut, ⟨out, ho, ih⟩ => exact ⟨out, h1 _ ho, ih⟩
  · rintro x xs pos outs rest n q _ _ ⟨⟨out, ho, h1⟩, _⟩ ⟨y, st, hy, h2⟩
    exact ⟨out, ho, y, st, hy, (by simpa using Run.append h1 xs : Run eps ps _ _ _ xs).trans h2⟩

/-! ## From runs to the search, without conflicts -/

theorem run_search (P : ParserOf eps init ps p) (hpc : Covers eps ps p)
    (hcf : ∀ x a, (p.getTokenProductions x a).length ≤ 1) {st' : List T}
    (hst' : ∀ st1, st' ≠ eps :: st1) :
    ∀ (m : Nat) (xs g : List T) (A : T) (before : List T) (pos : Nat),
      RunN eps ps m (typesFrom tokens pos) (xs ++ g) [] st' →
      (⟨A, before ++ xs⟩ : Production T) ∈ ps →
      (∀ y ∈ g, ¬ IsNonTerminal ps y → ∃ q ∈ ps, y ∈ q.output) →
      (∀ t, StrFirst eps ps (strip eps g) t → CanFollow eps ps A t) →
      (∃ ns q w1, Seq eps ps p.getTokenProductions tokens xs pos (.found (ns, q)) ∧
        IsForest eps ps xs w1 ns ∧ tokens.drop pos = w1 ++ tokens.drop q ∧
        ∃ m', m' ≤ m ∧ RunN eps ps m' (typesFrom tokens q) g [] st') ∨
      (∃ k st1, st' = k :: st1 ∧ IsNonTerminal ps k ∧
        Seq eps ps p.getTokenProductions tokens xs pos .ranOut) ∨
      (∃ k st1, st' = k :: st1 ∧ ¬ IsNonTerminal ps k ∧
        Seq eps ps p.getTokenProductions tokens xs pos .failed) := by
  have hwf := P.grammar.wf
  intro m
  induction m using Nat.strongRecOn with
  | _ m ih =>
  intro xs g A before pos hrun hmem hg hctx
  cases xs with
  | nil => exact .inl ⟨[], pos, [], .nil _, .nil, rfl, m, Nat.le_refl _, hrun⟩
  | cons x xs =>
    rw [List.cons_append] at hrun
    generalize hw : typesFrom tokens pos = w at hrun
    cases hrun with
    | refl =>
      have hnone : tokens[pos]? = none := by
        unfold typesFrom at hw
        simp only [List.map_eq_nil_iff, List.drop_eq_nil_iff] at hw
        exact List.getElem?_eq_none_iff.2 hw
      by_cases hx : IsNonTerminal ps x
      · exact .inr (.inl ⟨x, _, rfl, hx, .ranOut _ _ _ hx hnone⟩)
      · refine .inr (.inr ⟨x, _, rfl, hx, .mismatch _ _ _ hx ?_ ?_⟩)
        · rintro rfl; exact hst' _ rfl
        · intro t ht; rw [hnone] at ht; simp at ht
    | skip n _ _ _ _ hr =>
      subst hw
      rcases ih n (by omega) xs g A (before ++ [eps]) pos hr (by simpa using hmem) hg hctx with
        ⟨ns, q, w1, h1, h2, h3, m', hm, h4⟩ | ⟨k, st1, h1, h2, h3⟩ | ⟨k, st1, h1, h2, h3⟩
      · refine .inl ⟨_, q, w1, .eps _ _ _ h1, ?_, h3, m', by omega, h4⟩
        have := IsForest.cons _ _ _ _ _ _ (IsTree.eps (eps := eps) (ps := ps)) h2
        simpa using this
      · exact .inr (.inl ⟨k, st1, h1, h2, .eps _ _ _ h3⟩)
      · exact .inr (.inr ⟨k, st1, h1, h2, .eps _ _ _ h3⟩)
    | read n _ w' _ _ _ hnt hne hr =>
      obtain ⟨t, ht⟩ : ∃ t, tokens[pos]? = some t := by
        cases h : tokens[pos]? with
        | none => rw [typesFrom_none h] at hw; simp at hw
        | some t => exact ⟨t, rfl⟩
      have hw' := hw
      rw [typesFrom_cons ht] at hw'
      simp only [List.cons.injEq] at hw'
      obtain ⟨rfl, rfl⟩ := hw'
      rcases ih n (by omega) xs g A (before ++ [t.tType]) (pos + 1) hr (by simpa using hmem) hg hctx with
        ⟨ns, q, w1, h1, h2, h3, m', hm, h4⟩ | ⟨k, st1, h1, h2, h3⟩ | ⟨k, st1, h1, h2, h3⟩
      · refine .inl ⟨_, q, t :: w1, .terminal _ _ _ _ hnt hne ht h1, ?_, ?_, m', by omega, h4⟩
        · have := IsForest.cons _ _ _ _ _ _ (IsTree.leaf t hnt hne) h2
          simpa using this
        · obtain ⟨hi, rfl⟩ := List.getElem?_eq_some_iff.1 ht
          rw [List.drop_eq_getElem_cons hi, h3]; rfl
      · exact .inr (.inl ⟨k, st1, h1, h2, .terminal _ _ _ _ hnt hne ht h3⟩)
      · exact .inr (.inr ⟨k, st1, h1, h2, .terminal _ _ _ _ hnt hne ht h3⟩)
    | expand n q _ _ _ _ hq hwne hr =>
      subst hw
      obtain ⟨t, ht⟩ : ∃ t, tokens[pos]? = some t := by
        cases h : tokens[pos]? with
        | none => exact absurd (typesFrom_none h) hwne
        | some t => exact ⟨t, rfl⟩
      have hx : IsNonTerminal ps q.input := ⟨q, hq, rfl⟩
      have hne : eps ∉ before ++ q.input :: xs := by
        intro hm
        have := (hwf _ hmem).2.2 hm
        have hb : before = [] ∧ xs = [] := by
          simp only [List.length_append, List.length_cons] at this
          exact ⟨List.length_eq_zero_iff.1 (by omega), List.length_eq_zero_iff.1 (by omega)⟩
        obtain ⟨rfl, rfl⟩ := hb
        simp only [List.nil_append, List.mem_singleton] at hm
        exact (hwf q hq).1 hm.symm
      have hrhs : rhs eps (⟨A, before ++ q.input :: xs⟩ : Production T) = before ++ q.input :: xs := by
        unfold rhs
        rw [if_neg]
        intro he
        apply hne
        simp only at he
        rw [he]; simp
      have hprod := Derives.of_production (eps := eps) hmem
      rw [hrhs] at hprod
      simp only at hprod
      have hg' : ∀ y ∈ xs ++ g, ¬ IsNonTerminal ps y → ∃ q ∈ ps, y ∈ q.output := by
        intro y hy hn
        rcases List.mem_append.1 hy with hy | hy
        · exact ⟨_, hmem, by simp [hy]⟩
        · exact hg y hy hn
      have hctx' : ∀ t, StrFirst eps ps (strip eps (xs ++ g)) t → CanFollow eps ps q.input t := by
        intro t htf
        rw [strip_append, strip_eq_self (fun h' => hne (by simp [h'])), strFirst_append] at htf
        rcases htf with htf | ⟨hnul, htf⟩
        · have h1 := htf.isTerminal
          obtain ⟨v, hv⟩ := htf.derives
          refine ⟨h1.1, h1.2, A, before, v, ⟨_, hmem, rfl⟩, hprod.trans ?_⟩
          have := hv.context (before ++ [q.input]) []
          simpa using this
        · obtain ⟨h1, h2, N, u, v, hN, hd⟩ := hctx t htf
          refine ⟨h1, h2, N, u ++ before, v, hN, hd.trans ?_⟩
          have h5 : Derives eps ps [A] (before ++ [q.input]) := by
            refine hprod.trans ?_
            have := hnul.derives.context (before ++ [q.input]) []
            simpa using this
          have := h5.context u (t :: v)
          simpa using this
      have hcand : p.getTokenProductions q.input t.tType = [q.output] := by
        have h2 : q.output ∈ p.getTokenProductions q.input t.tType := by
          refine hpc q hq _ ?_
          have hr' := hr.run
          rw [typesFrom_cons ht] at hr'
          obtain ⟨h1, h3, h4⟩ := Run.strFirst hwf hr' (by
            intro y hy hn
            rcases List.mem_append.1 hy with hy | hy
            · exact ⟨q, hq, hy⟩
            · exact hg' y hy hn)
          refine ⟨h3, h4, ?_⟩
          rw [strip_append, strip_output hwf hq, strFirst_append] at h1
          rcases h1 with h1 | ⟨h1, h5⟩
          · exact .inl h1.derives
          · exact .inr ⟨h1.derives, hctx' _ h5⟩
        have := hcf q.input t.tType
        match hl : p.getTokenProductions q.input t.tType, h2, this with
        | [o], h2, _ => simp at h2; rw [h2]
      rcases ih n (by omega) q.output (xs ++ g) q.input [] pos hr hq hg' hctx' with
        ⟨ns, q1, w1, h1, h2, h3, m', hm, h4⟩ | ⟨k, st1, h1, h2, h3⟩ | ⟨k, st1, h1, h2, h3⟩
      · have hch : Choice eps ps p.getTokenProductions tokens q.input pos
            (p.getTokenProductions q.input t.tType) (.found (.mk ns ⟨none, q.input⟩, q1, [])) := by
          rw [hcand]; exact .here _ _ _ _ _ _ h1
        rcases ih m' (by omega) xs g A (before ++ [q.input]) q1 h4 (by simpa using hmem) hg hctx with
          ⟨ns2, q2, w2, h5, h6, h7, m2, hm2, h8⟩ | ⟨k, st1, h5, h6, h7⟩ | ⟨k, st1, h5, h6, h7⟩
        · refine .inl ⟨_, q2, w1 ++ w2, .nonTerminal _ _ _ t _ hx ht (.found _ _ _ _ _ _ _ _ _ hch h5),
            .cons _ _ _ _ _ _ (.node q _ _ hq h2) h6, ?_, m2, by omega, h8⟩
          rw [h3, h7]; simp
        · exact .inr (.inl ⟨k, st1, h5, h6, .nonTerminal _ _ _ t _ hx ht
            (.ranOutAfter _ _ _ _ _ _ _ hch h7)⟩)
        · exact .inr (.inr ⟨k, st1, h5, h6, .nonTerminal _ _ _ t _ hx ht
            (.again _ _ _ _ _ _ _ _ hch h7 (.failed _ _ _ _ (.none _ _)))⟩)
      · exact .inr (.inl ⟨k, st1, h1, h2, .nonTerminal _ _ _ t _ hx ht
          (.ranOut _ _ _ _ (by rw [hcand]; exact .ranOut _ _ _ _ h3))⟩)
      · exact .inr (.inr ⟨k, st1, h1, h2, .nonTerminal _ _ _ t _ hx ht
          (.failed _ _ _ _ (by rw [hcand]; exact .next _ _ _ _ _ h3 (.none _ _)))⟩)

/-- What the search for the initial symbol gives if the input can be read. -/
theorem choice_of_run (P : ParserOf eps init ps p) (hpc : Covers eps ps p)
    (hcf : ∀ x a, (p.getTokenProductions x a).length ≤ 1) (hinit : IsNonTerminal ps init)
    {t : Token L T} {ts : List (Token L T)} {st' : List T} (hst' : ∀ st1, st' ≠ eps :: st1)
    (h : Run eps ps ((t :: ts).map (·.tType)) [init] [] st') :
    (∃ n q, st' = [] ∧ IsTree eps ps init (t :: ts) n ∧
      Choice eps ps p.getTokenProductions (t :: ts) init 0 (p.getTokenProductions init t.tType)
        (.found (n, q, []))) ∨
    (∃ k st1, st' = k :: st1 ∧ IsNonTerminal ps k ∧
      Choice eps ps p.getTokenProductions (t :: ts) init 0 (p.getTokenProductions init t.tType) .ranOut) ∨
    (∃ k st1, st' = k :: st1 ∧ ¬ IsNonTerminal ps k ∧
      Choice eps ps p.getTokenProductions (t :: ts) init 0 (p.getTokenProductions init t.tType) .failed) := by
  have hwf := P.grammar.wf
  have hrun := h
  generalize hw : (t :: ts).map (·.tType) = w at hrun
  cases hrun with
  | refl => simp at hw
  | skip => obtain ⟨q, hq, hqe⟩ := hinit; exact absurd hqe (hwf q hq).1
  | read _ _ _ _ _ hnt => exact absurd hinit hnt
  | expand q _ _ _ _ hq hne hr =>
    subst hw
    have hcand : p.getTokenProductions q.input t.tType = [q.output] := by
      have h2 : q.output ∈ p.getTokenProductions q.input t.tType := by
        refine hpc q hq _ ?_
        have hr' := hr
        rw [List.map_cons] at hr'
        obtain ⟨h1, h3, h4⟩ := Run.strFirst hwf hr' (by
          intro y hy hn
          simp only [List.append_nil] at hy
          exact ⟨q, hq, hy⟩)
        rw [strip_append, strip_output hwf hq] at h1
        simp only [strip, List.filter_nil, List.append_nil] at h1
        exact ⟨h3, h4, .inl h1.derives⟩
      have := hcf q.input t.tType
      match hl : p.getTokenProductions q.input t.tType, h2, this with
      | [o], h2, _ => simp at h2; rw [h2]
    obtain ⟨m, hm⟩ := RunN.of_run hr
    rw [hcand]
    rcases run_search (tokens := t :: ts) P hpc hcf hst' m q.output [] q.input [] 0 hm hq (by simp)
        (by intro t ht; exact absurd ht not_strFirst_nil) with
      ⟨ns, q1, w1, h1, h2, h3, m', hm', h4⟩ | ⟨k, st1, h1, h2, h3⟩ | ⟨k, st1, h1, h2, h3⟩
    · generalize hw2 : typesFrom (t :: ts) q1 = w2 at h4
      cases h4 with
      | refl =>
        refine .inl ⟨_, q1, rfl, ?_, .here _ _ _ _ _ _ h1⟩
        have : (t :: ts).drop q1 = [] := by
          unfold typesFrom at hw2
          simpa using hw2
        rw [this, List.append_nil] at h3
        rw [show t :: ts = w1 from h3]
        exact .node q _ _ hq h2
    · exact .inr (.inl ⟨k, st1, h1, h2, .ranOut _ _ _ _ h3⟩)
    · exact .inr (.inr ⟨k, st1, h1, h2, .next _ _ _ _ _ h3 (.none _ _)⟩)

/-! ## Beginnings of sentences can be read -/

/-- The input can be read, and what is left does not begin with `eps`. -/
def Stops (eps : T) (ps : List (Production T)) (w xs : List T) : Prop :=
  ∃ st, Run eps ps w xs [] st ∧ ∀ st1, st ≠ eps :: st1

theorem stops_nil (xs : List T) : Stops eps ps [] xs := by
  induction xs with
  | nil => exact ⟨[], .refl _ _, by simp⟩
  | cons x xs ih =>
    by_cases hx : x = eps
    · subst hx
      obtain ⟨st, h1, h2⟩ := ih
      exact ⟨st, .skip _ _ _ _ h1, h2⟩
    · exact ⟨x :: xs, .refl _ _, by simp [hx]⟩

theorem Stops.append {w xs ys : List T} (h : Stops eps ps w xs) : Stops eps ps w (xs ++ ys) := by
  obtain ⟨st, h1, h2⟩ := h
  cases st with
  | nil =>
    obtain ⟨st, h3, h4⟩ := stops_nil (eps := eps) (ps := ps) ys
    exact ⟨st, (by simpa using Run.append h1 ys : Run eps ps _ _ _ ys).trans h3, h4⟩
  | cons k st =>
    exact ⟨_, Run.append h1 ys, by
      intro st1 he
      simp only [List.cons_append, List.cons.injEq] at he
      exact h2 st (by rw [he.1])⟩

theorem forest_run {xs : List T} {W : List (Token L T)} {ns : List (Node L T)}
    (h : IsForest eps ps xs W ns) :
    (∀ r, r ≠ [] → Run eps ps (W.map (·.tType) ++ r) xs r []) ∧
      ∀ w z, W.map (·.tType) = w ++ z → Stops eps ps w xs := by
  refine IsForest.rec (eps := eps) (ps := ps)
    (motive_1 := fun x W _ _ => (∀ r, r ≠ [] → Run eps ps (W.map (·.tType) ++ r) [x] r []) ∧
      ∀ w z, W.map (·.tType) = w ++ z → Stops eps ps w [x])
    (motive_2 := fun xs W _ _ => (∀ r, r ≠ [] → Run eps ps (W.map (·.tType) ++ r) xs r []) ∧
      ∀ w z, W.map (·.tType) = w ++ z → Stops eps ps w xs) ?_ ?_ ?_ ?_ ?_ h
  · intro t hnt hne
    refine ⟨fun r _ => .read _ _ _ _ _ hnt hne (.refl _ _), fun w z hz => ?_⟩
    cases w with
    | nil => exact stops_nil _
    | cons a w =>
      simp only [List.map_cons, List.map_nil, List.cons_append, List.cons.injEq] at hz
      obtain ⟨rfl, hz⟩ := hz
      have := List.append_eq_nil_iff.1 hz.symm
      rw [this.1]
      exact ⟨[], .read _ _ _ _ _ hnt hne (.refl _ _), by simp⟩
  · refine ⟨fun r _ => .skip _ _ _ _ (.refl _ _), fun w z hz => ?_⟩
    have := List.append_eq_nil_iff.1 hz.symm
    rw [this.1]
    exact stops_nil _
  · intro q W ns hq _ ih
    refine ⟨fun r hr => .expand q _ _ _ _ hq (by simp [hr]) (by simpa using ih.1 r hr), fun w z hz => ?_⟩
    cases w with
    | nil => exact stops_nil _
    | cons a w =>
      obtain ⟨st, h1, h2⟩ := ih.2 _ z hz
      exact ⟨st, .expand q _ _ _ _ hq (by simp) (by simpa using h1), h2⟩
  · exact ⟨fun r _ => .refl _ _, fun w z hz => by
      have := List.append_eq_nil_iff.1 hz.symm
      rw [this.1]
      exact stops_nil _⟩
  · intro x xs W1 W2 n ns _ _ ih1 ih2
    have hfst : ∀ r, r ≠ [] → Run eps ps (W1.map (·.tType) ++ r) (x :: xs) r xs := fun r hr => by
      simpa using Run.append (ih1.1 r hr) xs
    refine ⟨fun r hr => ?_, fun w z hz => ?_⟩
    · have h1 := hfst (W2.map (·.tType) ++ r) (by simp [hr])
      rw [List.map_append, List.append_assoc]
      exact h1.trans (ih2.1 r hr)
    · rw [List.map_append] at hz
      rcases List.append_eq_append_iff.1 hz with ⟨a, h1, h2⟩ | ⟨a, h1, h2⟩
      · cases a with
        | nil =>
          simp only [List.append_nil] at h1
          subst h1
          exact (ih1.2 _ [] (by simp)).append (ys := xs)
        | cons b a =>
          subst h1
          obtain ⟨st, h3, h4⟩ := ih2.2 _ z h2
          exact ⟨st, (hfst _ (by simp)).trans h3, h4⟩
      · exact (ih1.2 w a h1).append (ys := xs)

theorem stops_nil_strip (xs : List T) :
    ∃ st, Run eps ps [] xs [] st ∧ (∀ st1, st ≠ eps :: st1) ∧ strip eps st = strip eps xs := by
  induction xs with
  | nil => exact ⟨[], .refl _ _, by simp, rfl⟩
  | cons x xs ih =>
    by_cases hx : x = eps
    · subst hx
      obtain ⟨st, h1, h2, h3⟩ := ih
      exact ⟨st, .skip _ _ _ _ h1, h2, by rw [h3, strip_cons_self]⟩
    · exact ⟨x :: xs, .refl _ _, by simp [hx], rfl⟩

theorem IsForest.derives_strip (hw : WellFormed eps ps) {xs : List T}
    {w : List (Token L T)} {ns : List (Node L T)} (h : IsForest eps ps xs w ns) :
    Derives eps ps (strip eps xs) (w.map (·.tType)) := by
  induction xs generalizing w ns with
  | nil => cases h; exact .refl _
  | cons x xs ih =>
    cases h with
    | cons _ _ w1 w2 n ns h1 h2 =>
      rw [List.map_append]
      rcases isTree_derives hw h1 with ⟨hx, hw1⟩ | ⟨hx, hd⟩
      · subst hx
        subst hw1
        rw [strip_cons_self]
        exact ih h2
      · rw [strip_cons_ne hx]
        exact Derives.append (a := [x]) hd (ih h2)

/-- All tokens of a tree can be read, with only symbols left that derive the empty string. -/
theorem forest_run_full (hw : WellFormed eps ps) {xs : List T} {W : List (Token L T)}
    {ns : List (Node L T)} (h : IsForest eps ps xs W ns) :
    ∃ st, Run eps ps (W.map (·.tType)) xs [] st ∧ (∀ st1, st ≠ eps :: st1) ∧
      Derives eps ps (strip eps st) [] := by
  refine IsForest.rec (eps := eps) (ps := ps)
    (motive_1 := fun x W _ _ => ∃ st, Run eps ps (W.map (·.tType)) [x] [] st ∧ (∀ st1, st ≠ eps :: st1) ∧
      Derives eps ps (strip eps st) [])
    (motive_2 := fun xs W _ _ => ∃ st, Run eps ps (W.map (·.tType)) xs [] st ∧ (∀ st1, st ≠ eps :: st1) ∧
      Derives eps ps (strip eps st) []) ?_ ?_ ?_ ?_ ?_ h
  · intro t hnt hne
    exact ⟨[], .read _ _ _ _ _ hnt hne (.refl _ _), by simp, .refl _⟩
  · exact ⟨[], .skip _ _ _ _ (.refl _ _), by simp, .refl _⟩
  · intro q W ns hq hf ih
    cases W with
    | nil =>
      refine ⟨[q.input], .refl _ _, by simp [(hw q hq).1], ?_⟩
      have := IsForest.derives_strip hw (IsForest.single (.node q _ _ hq hf))
      exact this
    | cons t W =>
      obtain ⟨st, h1, h2⟩ := ih
      exact ⟨st, .expand q _ _ _ _ hq (by simp) (by simpa using h1), h2⟩
  · exact ⟨[], .refl _ _, by simp, .refl _⟩
  · intro x xs W1 W2 n ns hx hxs ih1 ih2
    cases W2 with
    | nil =>
      obtain ⟨st, h1, h2, h3⟩ := ih1
      have hnul : Derives eps ps (strip eps xs) [] := IsForest.derives_strip hw hxs
      have h4 := Run.append h1 xs
      simp only [List.append_nil] at h4 ⊢
      cases st with
      | nil =>
        obtain ⟨st, h5, h6, h7⟩ := stops_nil_strip (eps := eps) (ps := ps) xs
        exact ⟨st, h4.trans h5, h6, by rw [h7]; exact hnul⟩
      | cons k st =>
        refine ⟨_, h4, ?_, ?_⟩
        · intro st1 he
          simp only [List.cons_append, List.cons.injEq] at he
          exact h2 st (by rw [he.1])
        · rw [strip_append]
          exact Derives.append h3 hnul
    | cons t W2 =>
      obtain ⟨st, h1, h2⟩ := ih2
      have h3 := Run.append ((forest_run (IsForest.single hx)).1 ((t :: W2).map (·.tType)) (by simp)) xs
      rw [List.map_append]
      exact ⟨st, Run.trans h3 h1, h2⟩

/-- A sentence can be read with nothing or a non-terminal next. -/
theorem reads_sentence (hw : WellFormed eps ps) {w : List T} (h : Sentence eps init ps w) :
    ReadsAll eps init ps w ∨ StopsBeforeNonTerminal eps init ps w := by
  obtain ⟨n, hn⟩ := tree_of_sentence (L := Unit) (w := w.map fun a => ⟨none, a⟩)
    (by simpa [Function.comp_def] using h)
  obtain ⟨st, h1, h2, h3⟩ := forest_run_full hw (IsForest.single hn)
  have hmap : (w.map fun a => (⟨none, a⟩ : Token Unit T)).map (·.tType) = w := by simp [Function.comp_def]
  rw [hmap] at h1
  cases st with
  | nil => exact .inl h1
  | cons k st =>
    refine .inr ⟨k, st, ?_, h1⟩
    by_contra hk
    rw [strip_cons_ne (fun hke => h2 st (by rw [hke]))] at h3
    have := derives_nil_iff.1 h3 k (by simp)
    have := Derives.terminal_eq hk this
    simp at this

/-- A beginning of a sentence can be read to its end. -/
theorem stops_of_begins {w : List T} (h : BeginsSentence eps init ps w) :
    Stops eps ps w [init] := by
  obtain ⟨z, hz⟩ := h
  obtain ⟨n, hn⟩ := tree_of_sentence (L := Unit) (w := (w ++ z).map fun a => ⟨none, a⟩)
    (by simpa [Function.comp_def] using hz)
  refine (forest_run (IsForest.single hn)).2 w z ?_
  simp [Function.comp_def]

/-- What can be read begins a sentence, if all non-terminals are productive. -/
theorem begins_of_run (hwf : WellFormed eps ps) (hpr : ∀ x, IsNonTerminal ps x → Productive eps ps x)
    (hinit : IsNonTerminal ps init) {w st : List T} (h : Run eps ps w [init] [] st) :
    BeginsSentence eps init ps w := by
  have hie : init ≠ eps := by
    rintro rfl
    obtain ⟨q, hq, hqe⟩ := hinit
    exact (hwf q hq).1 hqe
  obtain ⟨u, hu, hd⟩ := Run.derives hwf h
  obtain ⟨⟨u', hu', ht⟩, hst⟩ := Run.terminals h (by
    intro y hy hn; simp only [List.mem_singleton] at hy; subst hy; exact absurd hinit hn)
  simp only [List.append_nil] at hu hu'
  subst hu
  subst hu'
  rw [strip_cons_ne hie] at hd
  have : ∀ l : List T, (∀ y ∈ l, ¬ IsNonTerminal ps y → ∃ q ∈ ps, y ∈ q.output) →
      ∃ z, Derives eps ps (strip eps l) z ∧ ∀ a ∈ z, IsTerminal ps a ∧ a ≠ eps := by
    intro l
    induction l with
    | nil => intro _; exact ⟨[], .refl _, by simp⟩
    | cons y l ih =>
      intro hl
      obtain ⟨z, h1, h2⟩ := ih fun y' hy => hl y' (by simp [hy])
      by_cases hy : y = eps
      · subst hy; rw [strip_cons_self]; exact ⟨z, h1, h2⟩
      · rw [strip_cons_ne hy]
        by_cases hn : IsNonTerminal ps y
        · obtain ⟨z', h3, h4⟩ := hpr y hn
          refine ⟨z' ++ z, Derives.append (a := [y]) h3 h1, ?_⟩
          intro a ha
          rcases List.mem_append.1 ha with ha | ha
          · exact h4 a ha
          · exact h2 a ha
        · refine ⟨y :: z, ?_, ?_⟩
          · have := h1.context [y] []
            simpa using this
          · intro a ha
            rcases List.mem_cons.1 ha with rfl | ha
            · exact ⟨⟨hl a (by simp) hn, hn⟩, hy⟩
            · exact h2 a ha
  obtain ⟨z, h1, h2⟩ := this st hst
  refine ⟨z, ?_, ?_⟩
  · have h3 := h1.context w []
    simp only [List.append_nil] at h3
    have h4 : strip eps ([] : List T) = [] := rfl
    rw [h4] at hd
    exact hd.trans h3
  · intro a ha
    rcases List.mem_append.1 ha with ha | ha
    · exact ht a ha
    · exact h2 a ha

end Verif.Parser
