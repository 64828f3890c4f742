import Verif.Spec.Insert
import Verif.Props.PanicMode

/-!
# Property C102: solvers that only insert
-/

set_option linter.unusedSectionVars false

namespace Verif.Props

open Verif.Spec Verif.Examples

variable {σ L T : Type} [DecidableEq T]

/-- The pieces of an input repaired by insertion: all tokens are kept. -/
theorem covers_inserts {solver : Option (Solver σ L T)} {tokens : List (Token L T)}
    (hins : OnlyInserts solver tokens) {l : List (Piece L T)} {i j : Nat} (h : Covers solver tokens l i j)
    (hi : i ≤ tokens.length) : i ≤ j ∧ j ≤ tokens.length ∧ keptTokens l = (tokens.drop i).take (j - i) := by
  induction h with
  | nil i => exact ⟨le_rfl, hi, by simp [keptTokens]⟩
  | kept t l i j ht _ ih =>
    obtain ⟨hlt, ht'⟩ := List.getElem?_eq_some_iff.1 ht
    obtain ⟨h1, h2, h3⟩ := ih hlt
    refine ⟨by omega, h2, ?_⟩
    have e : j - i = (j - (i + 1)) + 1 := by omega
    rw [keptTokens, h3, e, List.drop_eq_getElem_cons hlt, List.take_succ_cons, ht']
  | repaired x l i j r hr _ ih =>
    have e := hins i r hr
    rw [e] at ih
    exact ih hi

/-- Without the repaired symbols. -/
theorem derives_kept {eps : T} {ps : List (Production T)} {l : List (Piece L T)}
    (hl : ∀ x, Piece.repaired x ∈ l → IsNonTerminal ps x) :
    Derives eps (vanishing eps ps) (l.map Piece.symbol) ((keptTokens l).map (·.tType)) := by
  induction l with
  | nil => exact .refl _
  | cons c l ih =>
    have ih := ih fun x hx => hl x (by simp [hx])
    cases c with
    | kept t => exact Derives.append (a := [t.tType]) (.refl _) ih
    | repaired x =>
      have h1 := Parser.nullable_vanishing (eps := eps) (hl x (by simp))
      exact Derives.append (a := [x]) (a' := []) h1 ih

/-- The tokens in a fixed symbol are of terminal types. -/
theorem fixAt_terminals {eps : T} {ps : List (Production T)} {solver : Option (Solver σ L T)} {tokens : List (Token L T)}
    {x : T} {i j : Nat} {w : List (Token L T)} {fs : FixedSymbol L T} (h : FixAt eps ps solver tokens x i j w fs) :
    ∀ t ∈ w, IsTerminal ps t.tType ∧ t.tType ≠ eps := by
  refine FixAt.rec (eps := eps) (ps := ps) (solver := solver) (tokens := tokens)
    (motive_1 := fun _ _ _ w _ _ => ∀ t ∈ w, IsTerminal ps t.tType ∧ t.tType ≠ eps)
    (motive_2 := fun xs _ _ w _ _ => (∀ x ∈ xs, ∃ q ∈ ps, x ∈ q.output) →
      ∀ t ∈ w, IsTerminal ps t.tType ∧ t.tType ≠ eps)
    ?_ ?_ ?_ ?_ ?_ h
  · intro x i r _ t ht
    simp at ht
  · intro q i j w parts hq _ _ ih
    exact ih fun x hx => ⟨q, hq, hx⟩
  · intro i _ t ht
    simp at ht
  · intro x xs i j w w' n parts h1 _ _ ih hx t ht
    rcases List.mem_append.1 ht with ht | ht
    · exact Parser.IsTree.terminals h1 (.inr (hx x (by simp))) t ht
    · exact ih (fun x h => hx x (by simp [h])) t ht
  · intro x xs i k j w w' fs parts _ _ _ ih1 ih2 hx t ht
    rcases List.mem_append.1 ht with ht | ht
    · exact ih1 t ht
    · exact ih2 (fun x h => hx x (by simp [h])) t ht

section
variable (h : HashOrder T) (eps init : T) (ps : List (Production T))
  (g : Grammar T) (hg : Grammar.new h eps init ps = .ok g) (hinit : IsNonTerminal ps init)
  (solver : Option (Solver σ L T)) (p : Parser σ L T) (hp : Built h g solver p) (tokens : List (Token L T))
  (hins : OnlyInserts solver tokens)
include hg hinit hp hins

/-- **C102.** Let no fix of the solver skip a token. Then a `Fix` result keeps all tokens of a beginning of the input,
each in its place; and they are a sentence of the grammar in which every non-terminal may vanish. -/
theorem C102_all_kept (s s' : σ) (f : FixedSymbol L T) (hr : Parses p tokens s (.fix f) s') :
    ∃ j, j ≤ tokens.length ∧ FixAt eps ps solver tokens init 0 j (tokens.take j) f ∧
      Sentence eps init (vanishing eps ps) ((tokens.take j).map (·.tType)) := by
  obtain ⟨l, j, hf, h1, -, h2, h3, -⟩ :=
    C82_fix_is_sentential_form h eps init ps g hg solver p hp tokens s s' f hr
  obtain ⟨-, hj, e⟩ := covers_inserts hins h1 (by omega)
  have e : keptTokens l = tokens.take j := by simpa using e
  refine ⟨j, hj, e ▸ hf, ?_, ?_⟩
  · rw [← e]
    refine (Parser.Derives.mono (fun q hq => by simp [vanishing, hq]) h3).trans (derives_kept fun x hx => ?_)
    rcases h2 x hx with rfl | hx
    · exact hinit
    · exact hx
  · intro a ha
    obtain ⟨t, ht, rfl⟩ := List.mem_map.1 ha
    obtain ⟨⟨⟨q, hq, ho⟩, hn⟩, he⟩ := fixAt_terminals (e ▸ hf) t ht
    exact ⟨⟨⟨q, by simp [vanishing, hq], ho⟩, fun k => hn (Parser.isNonTerminal_vanishing.1 k)⟩, he⟩

/-- **C102**, end-marked: if the grammar is end-marked and the last token is the only end marker, a `Fix` result keeps
the whole input, and so the input is a sentence of the grammar in which every non-terminal may vanish; or it is
the fix of the initial symbol that the solver returned at the first token. -/
theorem C102_whole_input (e : T) (hem : EndMarked eps init e ps) (hin : EndsWith e tokens) (s s' : σ)
    (f : FixedSymbol L T) (hr : Parses p tokens s (.fix f) s') :
    (FixAt eps ps solver tokens init 0 tokens.length tokens f ∧
      Sentence eps init (vanishing eps ps) (tokens.map (·.tType))) ∨
    ∃ r, SolverReturned solver tokens 0 r ∧ f = .mk r.production init := by
  obtain ⟨j, hj, hf, hs⟩ := C102_all_kept h eps init ps g hg hinit solver p hp tokens hins s s' f hr
  by_cases hall : j = tokens.length
  · subst hall
    rw [List.take_length] at hf hs
    exact .inl ⟨hf, hs⟩
  right
  generalize hx : init = x at hf
  generalize hi : 0 = i at hf
  generalize hw : tokens.take j = w at hf
  cases hf with
  | solver _ _ r hr => subst hx hi; exact ⟨r, hr, rfl⟩
  | built q _ _ _ parts hq hparts _ =>
    exfalso
    obtain ⟨u, hu, -⟩ := hem.initial_ends q hq hx.symm
    rw [hu] at hparts
    obtain ⟨k, t, rfl, hk, ht⟩ := partsAt_last hem.ne_eps hem.terminal u hparts
    obtain ⟨ts, t', rfl, -, hts⟩ := hin
    rcases Nat.lt_or_ge k ts.length with hlt | hge
    · rw [List.getElem?_append_left hlt] at hk
      exact absurd ht (hts t (List.mem_of_getElem? hk))
    · simp at hj hall
      omega

end

/-- **C102**, a solver of this kind: the one that inserts what is missing always returns, always repairs, skips no
token, and so accounts for the tokens it skips. -/
theorem C102_insert_missing (eps : T) (tokens : List (Token L T)) :
    SolverTerminates (some (insertMissing : Solver σ L T)) ∧
    AlwaysRepairs (insertMissing : Solver σ L T) tokens ∧
    OnlyInserts (some (insertMissing : Solver σ L T)) tokens ∧
    Accounts eps (some (insertMissing : Solver σ L T)) tokens := by
  have hret : ∀ pos r, SolverReturned (some (insertMissing : Solver σ L T)) tokens pos r →
      pos < tokens.length ∧ ∃ m, r = ⟨pos, .mk [.gap ⟨[], m⟩]⟩ := by
    rintro pos r ⟨hpos, sv, s, s', he, hc⟩
    cases he
    rcases hc with ⟨fp, hc⟩ | ⟨fps, hc⟩
    · cases hc; exact ⟨hpos, _, rfl⟩
    · cases hc; exact ⟨hpos, _, rfl⟩
  refine ⟨?_, fun pos hpos => ⟨fun fp s => ⟨_, _, rfl, le_rfl, hpos⟩, fun fps s => ⟨_, _, rfl, le_rfl, hpos⟩⟩, ?_, ?_⟩
  · rintro sv he
    cases he
    exact ⟨nofun, nofun⟩
  · intro pos r hr
    obtain ⟨-, m, rfl⟩ := hret pos r hr
    rfl
  · intro pos r hr
    obtain ⟨hpos, m, rfl⟩ := hret pos r hr
    exact ⟨le_rfl, hpos.le, by simp [productionLexemes, partsLexemes, partLexemes]⟩

/-- **C102**, the outcome with that solver: let the grammar be end-marked, not left-recursive even when every
non-terminal may vanish, conflict-free and without two equal non-terminals side by side. On an input whose last token
is the only end marker the result is `Ok`, with a parse tree, for a sentence; `Fix` for all other inputs; and if the
input is no sentence even when every non-terminal may vanish, the whole input is given up: the result is the solver's
own fix of the initial symbol. -/
theorem C102_insert_missing_decides (h : HashOrder T) (eps init : T) (ps : List (Production T))
    (g : Grammar T) (hg : Grammar.new h eps init ps = .ok g) (hinit : IsNonTerminal ps init)
    (p : Parser σ L T) (hp : Built h g (some insertMissing) p) (hcf : ConflictFree p.transitions)
    (hadj : NoAdjacentRepeat ps) (hnlr : NotLeftRecursive eps (vanishing eps ps))
    (e : T) (hem : EndMarked eps init e ps) (tokens : List (Token L T)) (hin : EndsWith e tokens) (s : σ) :
    (Sentence eps init ps (tokens.map (·.tType)) →
      ∃ tree, Parses p tokens s (.ok tree) s ∧ IsTree eps ps init tokens tree.root) ∧
    (¬ Sentence eps init ps (tokens.map (·.tType)) → ∃ f s', Parses p tokens s (.fix f) s' ∧
      ((FixAt eps ps (some (insertMissing : Solver σ L T)) tokens init 0 tokens.length tokens f ∧
        Sentence eps init (vanishing eps ps) (tokens.map (·.tType))) ∨
      ∃ m, f = .mk (.mk [.gap ⟨[], m⟩]) init)) := by
  obtain ⟨h1, h2, h3, -⟩ := C102_insert_missing (σ := σ) eps tokens
  obtain ⟨k1, k2⟩ := C93_sentence_or_fix h eps init ps g hg insertMissing p hp hcf hadj hnlr e hem tokens hin h1 h2 s
  refine ⟨k1, fun hno => ?_⟩
  obtain ⟨f, s', hr⟩ := k2 hno
  refine ⟨f, s', hr, ?_⟩
  rcases C102_whole_input h eps init ps g hg hinit _ p hp tokens h3 e hem hin s s' f hr with k | ⟨r, hr', rfl⟩
  · exact .inl k
  · right
    obtain ⟨-, sv, t, t', he, hc⟩ := hr'
    cases he
    rcases hc with ⟨fp, hc⟩ | ⟨fps, hc⟩
    · cases hc; exact ⟨_, rfl⟩
    · cases hc; exact ⟨_, rfl⟩

/-- The input `( id + ) $`. -/
def idPlus : List (Token Nat Nat) := [⟨some 1, 13⟩, ⟨some 2, 15⟩, ⟨some 3, 11⟩, ⟨some 4, 14⟩, ⟨some 5, 16⟩]

/-- The hypotheses of C102 are met by the grammar of expressions. In `( id + ) $` a `T` is inserted behind `+`, all
tokens are kept. On `id ( $` nothing can be saved: the result is the solver's own fix of the initial symbol. -/
theorem C102_example : ∃ g p, Grammar.new (HashOrder.id Nat) 0 1 exprPs = .ok g ∧ IsNonTerminal exprPs 1 ∧
    Built (HashOrder.id Nat) g (some (insertMissing (σ := Unit))) p ∧
    ConflictFree p.transitions ∧ NoAdjacentRepeat exprPs ∧ NotLeftRecursive 0 (vanishing 0 exprPs) ∧
    EndMarked 0 1 16 exprPs ∧ EndsWith 16 idPlus ∧
    Parses p idPlus () (.fix (atEnd 5 (.mk (.mk [.fixed (inParentheses 1 4 (.mk (.mk
      [.ok (.mk [.mk [.mk [] ⟨some 2, 15⟩] ⟨none, 6⟩, .mk [.mk [] ⟨none, 0⟩] ⟨none, 5⟩] ⟨none, 4⟩),
        .fixed (.mk (.mk [.ok (.mk [] ⟨some 3, 11⟩), .fixed (.mk (.mk [.gap ⟨[], []⟩]) 4),
          .ok (.mk [.mk [] ⟨none, 0⟩] ⟨none, 3⟩)]) 3)]) 2)),
      .ok (.mk [.mk [] ⟨none, 0⟩] ⟨none, 3⟩)]) 2))) () ∧
    Parses p [⟨some 1, 15⟩, ⟨some 2, 13⟩, ⟨some 3, 16⟩] () (.fix (.mk (.mk [.gap ⟨[], [16]⟩]) 1)) () := by
  have hp : ∃ g p, Grammar.new (HashOrder.id Nat) 0 1 exprPs = .ok g ∧
      Built (HashOrder.id Nat) g (some (insertMissing (σ := Unit))) p ∧
      Parses p idPlus () (.fix (atEnd 5 (.mk (.mk [.fixed (inParentheses 1 4 (.mk (.mk
        [.ok (.mk [.mk [.mk [] ⟨some 2, 15⟩] ⟨none, 6⟩, .mk [.mk [] ⟨none, 0⟩] ⟨none, 5⟩] ⟨none, 4⟩),
          .fixed (.mk (.mk [.ok (.mk [] ⟨some 3, 11⟩), .fixed (.mk (.mk [.gap ⟨[], []⟩]) 4),
            .ok (.mk [.mk [] ⟨none, 0⟩] ⟨none, 3⟩)]) 3)]) 2)),
        .ok (.mk [.mk [] ⟨none, 0⟩] ⟨none, 3⟩)]) 2))) () ∧
      Parses p [⟨some 1, 15⟩, ⟨some 2, 13⟩, ⟨some 3, 16⟩] () (.fix (.mk (.mk [.gap ⟨[], [16]⟩]) 1)) () :=
    ⟨_, _, rfl, Parser.built_of_eval_solver (n := 10) rfl, Parser.parse_returns (n := 40) rfl,
      Parser.parse_returns (n := 40) rfl⟩
  obtain ⟨g, p, hg, hp, h1, h2⟩ := hp
  refine ⟨g, p, hg, ⟨⟨1, [2, 16]⟩, by decide, rfl⟩, hp, exprPs_conflictFree p _ g hg _ hp, exprPs_noAdjacentRepeat, ?_,
    exprPs_endMarked,
    ⟨[⟨some 1, 13⟩, ⟨some 2, 15⟩, ⟨some 3, 11⟩, ⟨some 4, 14⟩], ⟨some 5, 16⟩, rfl, rfl, by decide⟩, h1, h2⟩
  exact notLeftRecursive_of_rank (fun x => 1 ≤ x && x ≤ 6)
    (fun x => if x = 1 then 5 else if x = 2 then 4 else if x = 4 then 3 else if x = 6 then 2 else
      if x = 3 then 1 else if x = 5 then 1 else 0) (by decide)

end Verif.Props
