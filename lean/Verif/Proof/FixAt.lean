import Verif.Spec.FixAt
import Verif.Proof.Recovery
import Verif.Proof.ParseTree

/-! # The parts of a fix lie side by side in the input -/

set_option linter.unusedSectionVars false

namespace Verif.Parser.Recovery

open Spec Spec.Recovery

variable {σ L T : Type} [DecidableEq T] {eps init : T} {ps : List (Production T)}
  {tokens : List (Token L T)} {cand : T → T → List (List T)} {solver : Option (Solver σ L T)}

/-- Where a derived non-terminal lies. -/
def DerivedAt (eps : T) (ps : List (Production T)) (solver : Option (Solver σ L T))
    (tokens : List (Token L T)) (x : T) (i : Nat) (outs : List (List T)) : Derived L T → Prop
  | .node n q rest => (∃ w, IsTree eps ps x w n ∧ w <+: tokens.drop i ∧ q = i + w.length) ∧
      ∀ o ∈ rest, o ∈ outs
  | .fixed fs q => ∃ w, FixAt eps ps solver tokens x i q w fs

/-- Where the parts found for a sequence of symbols lie. -/
def FoundAt (eps : T) (ps : List (Production T)) (solver : Option (Solver σ L T))
    (tokens : List (Token L T)) (xs : List T) (i : Nat) (l : List (Part L T)) (q : Nat) : Prop :=
  ∃ w, PartsAt eps ps solver tokens xs i q w (l.map toFixedPart)

theorem answer_returned {pos : Nat} {sg : Bool} {fps : List (FailedProduction L T)} {s s' : σ}
    {r : FixResult L T} (hpos : pos < tokens.length)
    (h : answer solver tokens pos sg fps s = .ok (some r, s')) :
    SolverReturned solver tokens pos r := by
  refine ⟨hpos, ?_⟩
  unfold answer at h
  split at h
  · simp at h
  · simp at h
  · exact ⟨_, _, _, rfl, .inl ⟨_, h⟩⟩
  · exact ⟨_, _, _, rfl, .inr ⟨_, h⟩⟩

/-- Parts that are all trees make a forest. -/
theorem PartsAt.forest {xs : List T} {i j : Nat} {w : List (Token L T)} {ns : List (Node L T)}
    (h : PartsAt eps ps solver tokens xs i j w
      ((ns.map ProductionParsedSymbol.ok).map toFixedPart)) :
    IsForest eps ps xs w ns ∧ w <+: tokens.drop i ∧ j = i + w.length := by
  induction ns generalizing xs i w with
  | nil => cases h; exact ⟨.nil, by simp, by simp⟩
  | cons n ns ih =>
    generalize hp : ((n :: ns).map ProductionParsedSymbol.ok).map toFixedPart = parts at h
    cases h with
    | nil => simp at hp
    | ok x xs _ _ w w' n' parts h1 h2 h3 =>
      simp only [List.map_cons, toFixedPart, List.cons.injEq, FixedProductionPart.ok.injEq] at hp
      obtain ⟨rfl, rfl⟩ := hp
      obtain ⟨h4, h5, h6⟩ := ih h3
      refine ⟨.cons _ _ _ _ _ _ h1 h4, ?_, by rw [h6]; simp; omega⟩
      obtain ⟨u, hu⟩ := h2
      rw [← hu]
      rw [← List.drop_drop, ← hu, List.drop_left] at h5
      exact List.prefix_append_right_inj _ |>.2 h5
    | fixed => simp [toFixedPart] at hp

theorem choice_at (hcand : ∀ x a out, out ∈ cand x a → (⟨x, out⟩ : Production T) ∈ ps) {x : T}
    {pos : Nat} {outs : List (List T)} {sg : Bool} {s s' : σ} {d : Derived L T}
    (h : Choice eps ps cand solver tokens x pos outs sg s (.found d s'))
    (houts : ∀ o ∈ outs, (⟨x, o⟩ : Production T) ∈ ps)
    (hpos : pos < tokens.length) : DerivedAt eps ps solver tokens x pos outs d := by
  suffices hmain : ∀ r, Choice eps ps cand solver tokens x pos outs sg s r →
      (∀ o ∈ outs, (⟨x, o⟩ : Production T) ∈ ps) → pos < tokens.length →
      ∀ d s', r = .found d s' → DerivedAt eps ps solver tokens x pos outs d from
    hmain _ h houts hpos _ _ rfl
  clear h houts hpos
  intro r h
  refine Choice.rec (eps := eps) (ps := ps) (cand := cand) (solver := solver) (tokens := tokens)
    (motive_1 := fun x pos outs _ _ r _ => (∀ o ∈ outs, (⟨x, o⟩ : Production T) ∈ ps) →
      pos < tokens.length → ∀ d s', r = .found d s' → DerivedAt eps ps solver tokens x pos outs d)
    (motive_2 := fun x pos _ outs _ r _ => (∀ o ∈ outs, (⟨x, o⟩ : Production T) ∈ ps) →
      pos < tokens.length → ∀ d s', r = .found d s' → DerivedAt eps ps solver tokens x pos outs d)
    (motive_3 := fun _ xs pos _ r _ => ∀ l q s', r = .found (l, q) s' →
      FoundAt eps ps solver tokens xs pos l q)
    (motive_4 := fun _ x xs pos n rest r r' _ =>
      (∀ o ∈ rest, (⟨x, o⟩ : Production T) ∈ ps) → pos < tokens.length →
      (∀ l q s', r = .found (l, q) s' → FoundAt eps ps solver tokens (x :: xs) pos (.ok n :: l) q) →
      ∀ l q s', r' = .found (l, q) s' → FoundAt eps ps solver tokens (x :: xs) pos l q)
    ?_ ?_ ?_ ?_ ?_ ?_ ?_ ?_ ?_ ?_ ?_ ?_ ?_ ?_ ?_ ?_ ?_ ?_ ?_ ?_ ?_ ?_ ?_ ?_ ?_ h
  -- Choice
  · intro x pos outs sg s s' d _ ih ho hpos d' s'' he
    cases he
    exact ih ho hpos _ _ rfl
  · intro x pos outs sg s _ ih ho hpos d' s'' he
    cases he
  · intro x pos outs sg s s1 s2 fps r _ ha _ ho hpos d' s'' he
    cases he
    exact ⟨_, .solver _ _ _ (answer_returned hpos ha)⟩
  · intro x pos outs sg s s1 s2 fps _ _ _ _ _ d' s'' he
    cases he
  · intro x pos outs sg s s1 fps er _ ha _ _ hpos d' s'' he
    cases he
  -- Alts
  · intro x pos sg s _ _ d' s'' he; cases he
  · intro x pos sg out outs s s' ns q _ ih ho hpos d' s'' he
    cases he
    obtain ⟨w, hw⟩ := ih _ _ _ rfl
    obtain ⟨h1, h2, h3⟩ := PartsAt.forest hw
    exact ⟨⟨w, .node ⟨x, out⟩ _ _ (ho out (by simp)) h1, h2, h3⟩, fun o h' => by simp [h']⟩
  · intro x pos sg out outs s s' l q _ hf ih ho hpos d' s'' he
    cases he
    obtain ⟨w, hw⟩ := ih _ _ _ rfl
    obtain ⟨fs, hfs⟩ := hf
    exact ⟨w, .built ⟨x, out⟩ _ _ _ _ (ho out (by simp)) hw
      ⟨fs, List.mem_map.2 ⟨_, hfs, rfl⟩⟩⟩
  · intro x pos sg out outs s s' f l r _ _ _ ih ho hpos d' s'' he
    match r, he with
    | .found d s, he =>
      have := ih (fun o h' => ho o (by simp [h'])) hpos _ _ rfl
      simp only [consFailed, Outcome.found.injEq] at he
      obtain ⟨rfl, rfl⟩ := he
      cases d with
      | node n q rest => exact ⟨this.1, fun o h' => by simp [this.2 o h']⟩
      | fixed fs q => exact this
  · intro x pos sg out outs s _ _ _ _ d' s'' he; cases he
  -- Seq
  · intro sg pos s l q s' he
    cases he
    exact ⟨[], .nil _⟩
  · intro sg xs pos s r _ ih l q s' he
    match r, he with
    | .found (l', q') s, he =>
      obtain ⟨w, hw⟩ := ih _ _ _ rfl
      cases he
      exact ⟨[] ++ w, .ok _ _ _ _ [] w _ _ .eps (by simp) (by simpa using hw)⟩
  · intro sg xs pos s t r h1 h2 h3 _ ih l q s' he
    match r, he with
    | .found (l', q') s, he =>
      obtain ⟨w, hw⟩ := ih _ _ _ rfl
      cases he
      refine ⟨[t] ++ w, .ok _ _ _ _ [t] w _ _ (.leaf t h1 h2) ?_ hw⟩
      obtain ⟨hlt, hget⟩ := List.getElem?_eq_some_iff.1 h3
      rw [List.drop_eq_getElem_cons hlt, hget]
      simp
  · intro sg x xs pos s _ _ _ l q s' he; cases he
  · intro sg x xs pos s _ _ l q s' he; cases he
  · intro sg x xs pos s s1 t n q rest r r' hx ht _ _ _ ih1 ih2 ih3 l q' s' he
    have hlt := (List.getElem?_eq_some_iff.1 ht).1
    have hd := ih1 (fun o ho => hcand _ _ _ ho) hlt _ _ rfl
    obtain ⟨⟨w, h1, h2, h3⟩, h4⟩ := hd
    refine ih3 (fun o ho => hcand _ _ _ (h4 o ho)) hlt ?_ l q' s' he
    intro l q'' s'' hr
    obtain ⟨w', hw'⟩ := ih2 _ _ _ hr
    exact ⟨w ++ w', .ok _ _ _ _ w w' _ _ h1 h2 (h3 ▸ hw')⟩
  · intro sg x xs pos s s1 t fs q r hx ht _ _ ih1 ih2 l q' s' he
    have hlt := (List.getElem?_eq_some_iff.1 ht).1
    obtain ⟨w, hw⟩ := ih1 (fun o ho => hcand _ _ _ ho) hlt _ _ rfl
    match r, he with
    | .found (l', q') s, he =>
      obtain ⟨w', hw'⟩ := ih2 _ _ _ rfl
      cases he
      exact ⟨w ++ w', .fixed _ _ _ _ _ w w' _ _ hx hw hw'⟩
  · intro sg x xs pos s s1 t f _ _ _ _ l q s' he; cases he
  · intro sg x xs pos s t _ _ _ _ l q s' he; cases he
  -- Resume
  · intro sg x xs pos n rest l q s _ _ hr l' q' s' he
    cases he
    exact hr _ _ _ rfl
  · intro sg x xs pos n rest _ _ _ l' q' s' he; cases he
  · intro sg x xs pos n n' rest rest' f s s1 q r r' _ _ _ ih1 ih2 ih3 ho hpos _ l' q' s' he
    have hd := ih1 ho hpos _ _ rfl
    obtain ⟨⟨w, h1, h2, h3⟩, h4⟩ := hd
    refine ih3 (fun o h' => ho o (h4 o h')) hpos ?_ l' q' s' he
    intro l q'' s'' hr
    obtain ⟨w', hw'⟩ := ih2 _ _ _ hr
    exact ⟨w ++ w', .ok _ _ _ _ w w' _ _ h1 h2 (h3 ▸ hw')⟩
  · intro sg x xs pos n rest f s s1 f' _ _ _ _ _ l' q' s' he; cases he
  · intro sg x xs pos n rest f s s1 fs q _ _ _ _ _ l' q' s' he; cases he
  · intro sg x xs pos n rest f s _ _ _ _ _ l' q' s' he; cases he

/-- If the solver does not go back, the tokens in the trees are a subsequence of the tokens spanned. -/
theorem fixAt_sublist (hfw : SolverForward solver tokens) {x : T} {i j : Nat}
    {w : List (Token L T)} {fs : FixedSymbol L T} (h : FixAt eps ps solver tokens x i j w fs) :
    i ≤ j ∧ w.Sublist ((tokens.drop i).take (j - i)) := by
  refine FixAt.rec (eps := eps) (ps := ps) (solver := solver) (tokens := tokens)
    (motive_1 := fun _ i j w _ _ => i ≤ j ∧ w.Sublist ((tokens.drop i).take (j - i)))
    (motive_2 := fun _ i j w _ _ => i ≤ j ∧ w.Sublist ((tokens.drop i).take (j - i)))
    ?_ ?_ ?_ ?_ ?_ h
  · intro x i r hr
    exact ⟨hfw _ _ hr, by simp⟩
  · intro p i j w parts _ _ _ ih
    exact ih
  · intro i; simp
  · intro x xs i j w w' n parts _ hpre _ ih
    refine ⟨by omega, ?_⟩
    have e : (tokens.drop i).take (j - i) =
        w ++ (tokens.drop (i + w.length)).take (j - (i + w.length)) := by
      obtain ⟨u, hu⟩ := hpre
      rw [← List.drop_drop, ← hu, List.drop_left, List.take_append,
        List.take_of_length_le (by omega)]
      congr 2
      omega
    rw [e]
    exact List.Sublist.append (List.Sublist.refl _) ih.2
  · intro x xs i k j w w' fs parts _ _ _ ih1 ih2
    refine ⟨by omega, ?_⟩
    have e : (tokens.drop i).take (j - i) =
        (tokens.drop i).take (k - i) ++ (tokens.drop k).take (j - k) := by
      have : j - i = (k - i) + (j - k) := by omega
      rw [this, List.take_add, List.drop_drop]
      congr 3
      omega
    rw [e]
    exact List.Sublist.append ih1.2 ih2.2

end Verif.Parser.Recovery
