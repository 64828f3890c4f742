import Verif.Spec.LL1
import Verif.Props.LL1

/-!
# Property C43: conflicts in the table and the LL(1) condition
-/

set_option linter.unusedSectionVars false

namespace Verif.Props

open Verif.Spec Verif.Examples

variable {σ L T : Type} [DecidableEq T]

/-- **C43**, one half: if the table has no conflicts and no production has two equal adjacent
non-terminals, the grammar is LL(1). -/
theorem C43_ll1_of_conflictFree (h : HashOrder T) (eps init : T) (ps : List (Production T))
    (g : Grammar T) (hg : Grammar.new h eps init ps = .ok g) (solver : Option (Solver σ L T))
    (p : Parser σ L T) (hp : Built h g solver p) (hadj : NoAdjacentRepeat ps)
    (hcf : ConflictFree p.transitions) : IsLL1 eps ps := by
  obtain ⟨ff, hff, e⟩ := (Parser.built_iff hg).1 hp
  have ht := (Parser.from_eq_ok e).2.2
  obtain ⟨t, h1, _, h2, _⟩ := C12_table_cells h eps init ps g hg ff hff
  rw [ht] at h1
  cases h1
  unfold IsLL1
  rw [List.pairwise_iff_forall_sublist]
  rintro q q' hsub hin a ⟨hq, hq'⟩
  have hmem : ∀ r ∈ ps, Predicts eps ps r a →
      ∃ l, p.transitions.getProductions r.input a = some l ∧ r ∈ l := by
    rintro r hr ⟨ha, hne, hd⟩
    refine C13_table_complete_partial h eps init ps g hg ff hff _ ht hadj r hr a ha hne ?_
    exact hd.imp id (fun hd => ⟨hd.1, hd.2.2.2⟩)
  obtain ⟨l, hl, hql⟩ := hmem q (hsub.subset (by simp)) hq
  obtain ⟨l', hl', hql'⟩ := hmem q' (hsub.subset (by simp)) hq'
  rw [← hin, hl] at hl'
  cases hl'
  have hlen := hcf _ _ _ hl
  have hfil := h2 _ _ _ hl
  have h3 := (hsub.filter (fun r => decide (r.input = q.input))).filter (fun r => decide (r ∈ l))
  rw [← hfil] at h3
  have := h3.length_le
  simp [hin, hql, hql'] at this
  omega

/-- **C43.** For grammars without two equal adjacent non-terminals in which a production that begins
with a nullable non-terminal is the only one of its symbol, the table has at most one production per
cell iff the grammar is LL(1). -/
theorem C43_conflictFree_iff_ll1 (h : HashOrder T) (eps init : T) (ps : List (Production T))
    (g : Grammar T) (hg : Grammar.new h eps init ps = .ok g) (solver : Option (Solver σ L T))
    (p : Parser σ L T) (hp : Built h g solver p) (hadj : NoAdjacentRepeat ps)
    (hlead : NullableLeadAlone eps ps) : ConflictFree p.transitions ↔ IsLL1 eps ps := by
  refine ⟨C43_ll1_of_conflictFree h eps init ps g hg solver p hp hadj, ?_⟩
  intro hll
  obtain ⟨ff, hff, e⟩ := (Parser.built_iff hg).1 hp
  have ht := (Parser.from_eq_ok e).2.2
  obtain ⟨t, h1, h2, h3, h4⟩ := C12_table_cells h eps init ps g hg ff hff
  rw [ht] at h1
  cases h1
  intro A a l hl
  match l, hl with
  | [], _ => simp
  | [_], _ => simp
  | q :: q' :: l, hl =>
    exfalso
    have hfil := h3 _ _ _ hl
    have hterm := (h2 A a).1 (by simp [hl])
    have hne : a ≠ eps := by
      rintro rfl
      simpa using h4 _ _ hl
    have hsub' : (q :: q' :: l).Sublist (ps.filter (fun r => r.input = A)) := by
      conv_lhs => rw [hfil]
      exact List.filter_sublist
    have hall : ∀ r ∈ q :: q' :: l, r ∈ ps ∧ r.input = A := by
      intro r hr
      simpa using hsub'.subset hr
    have hpred : ∀ r ∈ q :: q' :: l, Predicts eps ps r a := by
      intro r hr
      obtain ⟨hrp, hrA⟩ := hall r hr
      refine ⟨hterm.2, hne, ?_⟩
      have := C14_table_precise_partial h eps init ps g hg ff hff _ ht r hrp a ?_ _ (by rw [hrA]; exact hl) hr
      · exact this.imp id (fun hd => ⟨hd.1, hterm.2, hne, hd.2⟩)
      · intro x rr hx hn
        have := hlead r hrp x rr hx hn
        rw [hrA] at this
        rw [this] at hsub'
        simpa using hsub'.length_le
    have hsub : [q, q'].Sublist ps := by
      refine List.Sublist.trans ?_ (hsub'.trans List.filter_sublist)
      simp
    unfold IsLL1 at hll
    rw [List.pairwise_iff_forall_sublist] at hll
    exact hll hsub (by rw [(hall q (by simp)).2, (hall q' (by simp)).2]) a
      ⟨hpred q (by simp), hpred q' (by simp)⟩

/-- **C43**, for the user: the parser of an LL(1) grammar that is end-marked and not left-recursive,
in which a production that begins with a nullable non-terminal is the only one of its symbol and no
production has two equal adjacent non-terminals, decides its language. -/
theorem C43_ll1_decides (h : HashOrder T) (eps init : T) (ps : List (Production T))
    (g : Grammar T) (hg : Grammar.new h eps init ps = .ok g) (p : Parser σ L T)
    (hp : Built h g none p) (hll : IsLL1 eps ps) (hlead : NullableLeadAlone eps ps)
    (hadj : NoAdjacentRepeat ps) (hnlr : NotLeftRecursive eps ps) (e : T)
    (hem : EndMarked eps init e ps) (tokens : List (Token L T)) (hin : EndsWith e tokens) (s : σ) :
    (Sentence eps init ps (tokens.map (·.tType)) →
      ∃ tree, Parses p tokens s (.ok tree) s ∧ IsTree eps ps init tokens tree.root) ∧
    (¬ Sentence eps init ps (tokens.map (·.tType)) → ∃ f s', Parses p tokens s (.err f) s') :=
  C22_decides h eps init ps g hg p hp
    ((C43_conflictFree_iff_ll1 h eps init ps g hg none p hp hadj hlead).2 hll) hadj hnlr e hem tokens
    hin s

/-! ## The hypotheses can be met, and what happens without them -/

/-- The terminals that predict a right-hand side, from FIRST and FOLLOW. -/
def predictList (ff : FirstFollow T) (eps A : T) : List T → List T
  | [] => (ff.getFollowSymbols A).getD []
  | x :: r => (ff.getFirstSymbols x).getD [] ++
      if eps ∈ (ff.getFirstSymbols x).getD [] then predictList ff eps A r else []

theorem mem_predictList {h : HashOrder T} {eps init : T} {ps : List (Production T)}
    {g : Grammar T} (hg : Grammar.new h eps init ps = .ok g) {ff : FirstFollow T}
    (hff : Returns (fun n => FirstFollow.from h n g) ff) (hadj : NoAdjacentRepeat ps)
    {q : Production T} (hq : q ∈ ps) {a : T} (hp : Predicts eps ps q a) :
    a ∈ predictList ff eps q.input (rhs eps q) := by
  obtain ⟨ha, hne, hd⟩ := hp
  have hsym : ∀ x ∈ rhs eps q, IsTerminal ps x ∨ IsNonTerminal ps x := by
    intro x hx
    by_cases hc : IsNonTerminal ps x
    · exact .inr hc
    · refine .inl ⟨⟨q, hq, ?_⟩, hc⟩
      unfold rhs at hx
      split at hx
      · simp at hx
      · exact hx
  have hd' : StrFirst eps ps (rhs eps q) a ∨
      (StrNullable eps ps (rhs eps q) ∧ CanFollow eps ps q.input a) := by
    rcases hd with ⟨v, hd⟩ | ⟨hd, hf⟩
    · exact .inl (strFirst_of_derives ha hne hd)
    · exact .inr ⟨derives_nil_iff.1 hd, hf⟩
  clear hd
  have hin : IsNonTerminal ps q.input := ⟨q, hq, rfl⟩
  generalize rhs eps q = l at *
  induction l with
  | nil =>
    rcases hd' with hd | ⟨_, _, _, n, u, v, hn, hd⟩
    · exact absurd hd not_strFirst_nil
    · obtain ⟨s, hs, has⟩ := C09_follow_complete_partial h eps init ps g hg ff hff hadj n _ a u v hn hin
        ha hne hd
      simpa [predictList, hs] using has
  | cons x l ih =>
    have hstart : CanStart eps ps x a → a ∈ (ff.getFirstSymbols x).getD [] := by
      intro hs
      by_cases hx : IsNonTerminal ps x
      · obtain ⟨s, h1, h2⟩ := (C05_first_exact h eps init ps g hg ff hff x hx a hne).2
          ⟨hs.1, hs.2.2⟩
        simpa [h1] using h2
      · have ht := (hsym x (by simp)).resolve_right hx
        obtain ⟨v, hv⟩ := hs.2.2
        have := Derives.terminal_eq hx hv
        simp only [List.cons.injEq] at this
        rw [(C07_first_domain h eps init ps g hg ff hff).2 x ht, this.1]
        simp
    have hnull : Nullable eps ps x → eps ∈ (ff.getFirstSymbols x).getD [] := by
      intro hs
      have hx : IsNonTerminal ps x := by
        by_contra hx
        have := Derives.terminal_eq hx hs
        simp at this
      obtain ⟨s, h1, h2⟩ := (C06_first_eps h eps init ps g hg ff hff x hx).2 hs
      simpa [h1] using h2
    simp only [predictList, List.mem_append]
    rw [strFirst_cons, strNullable_cons] at hd'
    rcases hd' with (hs | ⟨hn, hs⟩) | ⟨⟨hn, hs⟩, hf⟩
    · exact .inl (hstart hs)
    · right
      rw [if_pos (hnull hn)]
      exact ih (fun y hy => hsym y (by simp [hy])) (.inl hs)
    · right
      rw [if_pos (hnull hn)]
      exact ih (fun y hy => hsym y (by simp [hy])) (.inr ⟨hs, hf⟩)

/-- It is enough to compare the prediction lists. -/
theorem ll1_of_check {h : HashOrder T} {eps init : T} {ps : List (Production T)}
    {g : Grammar T} (hg : Grammar.new h eps init ps = .ok g) {ff : FirstFollow T}
    (hff : Returns (fun n => FirstFollow.from h n g) ff) (hadj : NoAdjacentRepeat ps)
    (hall : ps.Pairwise (fun p q => p.input = q.input →
      ∀ a ∈ predictList ff eps p.input (rhs eps p), a ∉ predictList ff eps q.input (rhs eps q))) :
    IsLL1 eps ps := by
  unfold IsLL1
  rw [List.pairwise_iff_forall_sublist] at hall ⊢
  intro q q' hsub hin a ⟨h1, h2⟩
  exact hall hsub hin a (mem_predictList hg hff hadj (hsub.subset (by simp)) h1)
    (mem_predictList hg hff hadj (hsub.subset (by simp)) h2)

theorem noAdjacentRepeat_of_check {ps : List (Production T)}
    (h : ∀ p ∈ ps, ∀ i < p.output.length, p.output[i]? ≠ p.output[i + 1]?) : NoAdjacentRepeat ps := by
  intro p hp u x v he hx
  refine h p hp u.length (by rw [he]; simp) ?_
  rw [he]
  simp

theorem nullableLeadAlone_of_check {h : HashOrder T} {eps init : T} {ps : List (Production T)}
    {g : Grammar T} (hg : Grammar.new h eps init ps = .ok g) {ff : FirstFollow T}
    (hff : Returns (fun n => FirstFollow.from h n g) ff)
    (hall : ∀ p ∈ ps, (∀ x ∈ (rhs eps p).head?, eps ∉ (ff.getFirstSymbols x).getD []) ∨
      ps.filter (fun q => q.input = p.input) = [p]) : NullableLeadAlone eps ps := by
  intro p hp x r hr hn
  rcases hall p hp with h' | h'
  · exfalso
    refine h' x (by rw [hr]; simp) ?_
    have hx : IsNonTerminal ps x := by
      by_contra hx
      have := Derives.terminal_eq hx hn
      simp at this
    obtain ⟨s, h1, h2⟩ := (C06_first_eps h eps init ps g hg ff hff x hx).2 hn
    simpa [h1] using h2
  · exact h'

/-- The hypotheses of C43 are met by the expression grammar. -/
example : IsLL1 0 exprPs ∧ NullableLeadAlone 0 exprPs ∧ NoAdjacentRepeat exprPs ∧
    NotLeftRecursive 0 exprPs ∧ EndMarked 0 1 16 exprPs := by
  obtain ⟨g, ff, hg, hff, h1, h2⟩ : ∃ g ff, Grammar.new (HashOrder.id Nat) 0 1 exprPs = .ok g ∧
      Returns (fun n => FirstFollow.from (HashOrder.id Nat) n g) ff ∧
      exprPs.Pairwise (fun p q => p.input = q.input →
        ∀ a ∈ predictList ff 0 p.input (rhs 0 p), a ∉ predictList ff 0 q.input (rhs 0 q)) ∧
      (∀ p ∈ exprPs, (∀ x ∈ (rhs 0 p).head?, 0 ∉ (ff.getFirstSymbols x).getD []) ∨
        exprPs.filter (fun q => q.input = p.input) = [p]) :=
    ⟨_, _, rfl, FirstFollow.returns_of_from (n := 20) rfl, by decide, by decide⟩
  exact ⟨ll1_of_check hg hff exprPs_noAdjacentRepeat h1, nullableLeadAlone_of_check hg hff h2,
    exprPs_noAdjacentRepeat, exprPs_notLeftRecursive, exprPs_endMarked⟩

/-- `S → R d $ | z A y $ | w B y $`, `R → Q`, `Q → A B | y`, `A → a | ε`, `B → b | ε`, with
`S = 1, R = 2, Q = 3, A = 4, B = 5` and `d = 10, y = 11, z = 12, w = 13, a = 14, b = 15, $ = 16`. -/
def leadRejectPs : List (Production Nat) :=
  [⟨1, [2, 10, 16]⟩, ⟨1, [12, 4, 11, 16]⟩, ⟨1, [13, 5, 11, 16]⟩, ⟨2, [3]⟩, ⟨3, [4, 5]⟩, ⟨3, [11]⟩,
   ⟨4, [14]⟩, ⟨4, [0]⟩, ⟨5, [15]⟩, ⟨5, [0]⟩]

/-- Without the hypothesis on nullable leading non-terminals the parser of an LL(1) grammar may have
conflicts in its table and reject sentences, although the grammar is end-marked, not left-recursive
and has no two equal adjacent non-terminals: `y d $` for the grammar `leadRejectPs`. The cell `(Q, y)`
holds `Q → A B`, because `y` can follow `A` elsewhere; `Q` and then `R` is derived as the empty string
and, once `R` has been derived, `Q → y` is not tried any more. -/
theorem C43_ll1_grammar_rejects_sentence : ∃ g p f,
    Grammar.new (HashOrder.id Nat) 0 1 leadRejectPs = .ok g ∧
    Built (σ := Unit) (L := Unit) (HashOrder.id Nat) g none p ∧
    IsLL1 0 leadRejectPs ∧ NoAdjacentRepeat leadRejectPs ∧ NotLeftRecursive 0 leadRejectPs ∧
    EndMarked 0 1 16 leadRejectPs ∧ ¬ ConflictFree p.transitions ∧
    Sentence 0 1 leadRejectPs [11, 10, 16] ∧
    Parses p [⟨none, 11⟩, ⟨none, 10⟩, ⟨none, 16⟩] () (.err f) () := by
  obtain ⟨g, p, f, ff, hg, hp, hff, h1, hc, hr⟩ : ∃ g p f ff,
      Grammar.new (HashOrder.id Nat) 0 1 leadRejectPs = .ok g ∧
      Built (σ := Unit) (L := Unit) (HashOrder.id Nat) g none p ∧
      Returns (fun n => FirstFollow.from (HashOrder.id Nat) n g) ff ∧
      leadRejectPs.Pairwise (fun p q => p.input = q.input →
        ∀ a ∈ predictList ff 0 p.input (rhs 0 p), a ∉ predictList ff 0 q.input (rhs 0 q)) ∧
      p.transitions.getProductions 3 11 = some [⟨3, [4, 5]⟩, ⟨3, [11]⟩] ∧
      Parses p [⟨none, 11⟩, ⟨none, 10⟩, ⟨none, 16⟩] () (.err f) () :=
    ⟨_, _, _, _, rfl, Parser.built_of_eval (n := 20) rfl, FirstFollow.returns_of_from (n := 20) rfl,
      by decide, rfl, Parser.parse_returns (n := 30) rfl⟩
  have hadj : NoAdjacentRepeat leadRejectPs := noAdjacentRepeat_of_check (by decide)
  refine ⟨g, p, f, hg, hp, ll1_of_check hg hff hadj h1, hadj, ?_, ?_, ?_, ⟨?_, ?_⟩, hr⟩
  · exact notLeftRecursive_of_rank (fun x => x == 2 || x == 3 || x == 4 || x == 5)
      (fun x => if x = 1 then 4 else if x = 2 then 3 else if x = 3 then 2 else if x = 4 then 1 else
        if x = 5 then 1 else 0) (by decide)
  · refine ⟨by decide, by unfold IsNonTerminal; decide, by decide, ?_, by decide⟩
    intro p hp hi
    refine ⟨p.output.dropLast, ?_, ?_⟩ <;> revert p <;> decide
  · intro hcf
    have := hcf 3 11 _ hc
    simp at this
  · refine .step (Step.mk [] [] ⟨1, [2, 10, 16]⟩ (by decide)) ?_
    refine .step (Step.mk [] [10, 16] ⟨2, [3]⟩ (by decide)) ?_
    refine .step (Step.mk [] [10, 16] ⟨3, [11]⟩ (by decide)) ?_
    exact .refl _
  · unfold IsTerminal IsNonTerminal; decide

end Verif.Props
