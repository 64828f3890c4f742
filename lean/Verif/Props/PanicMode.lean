import Verif.Spec.PanicMode
import Verif.Props.Forward
import Verif.Props.Recovery
import Verif.Props.ErrorsOnly
import Verif.Props.Repaired
import Verif.Props.Wrap

/-!
# Property C93: solvers that always repair, and panic mode
-/

set_option linter.unusedSectionVars false

namespace Verif.Props

open Verif.Spec Verif.Examples

variable {σ L T : Type} [DecidableEq T]

theorem _root_.Verif.Spec.AlwaysRepairs.returned {sv : Solver σ L T} {tokens : List (Token L T)}
    (h : AlwaysRepairs sv tokens) {pos : Nat} {r : FixResult L T}
    (hr : SolverReturned (some sv) tokens pos r) :
    pos ≤ r.finalTokenPosition ∧ r.finalTokenPosition < tokens.length := by
  obtain ⟨hpos, sv', s, s', he, hc⟩ := hr
  cases he
  rcases hc with ⟨fp, hc⟩ | ⟨fps, hc⟩
  · obtain ⟨r', s'', h1, h2⟩ := (h pos hpos).1 fp s
    rw [h1] at hc
    cases hc
    exact h2
  · obtain ⟨r', s'', h1, h2⟩ := (h pos hpos).2 fps s
    rw [h1] at hc
    cases hc
    exact h2

/-- **C93.** Let the grammar be end-marked and not left-recursive even when every non-terminal may vanish, and
let the solver answer every call by a fix that does not go back and does not skip the last token. Then on every
input whose last token is the only end marker `parse_from_tokens` returns, and the result is `Ok` or `Fix`:
no `Err`, no panic, no endless loop. -/
theorem C93_always_repaired (h : HashOrder T) (eps init : T) (ps : List (Production T))
    (g : Grammar T) (hg : Grammar.new h eps init ps = .ok g) (sv : Solver σ L T)
    (p : Parser σ L T) (hp : Built h g (some sv) p) (hnlr : NotLeftRecursive eps (vanishing eps ps))
    (e : T) (hem : EndMarked eps init e ps) (tokens : List (Token L T)) (hin : EndsWith e tokens)
    (hterm : SolverTerminates (some sv)) (hrep : AlwaysRepairs sv tokens) (s : σ) :
    (∃ tree s', Parses p tokens s (.ok tree) s') ∨ (∃ f s', Parses p tokens s (.fix f) s') := by
  have hlen : 0 < tokens.length := by
    obtain ⟨ts, t, rfl, -⟩ := hin
    simp
  rcases C81_insertions h eps init ps g hg (some sv) p hp hnlr tokens hterm
    (fun pos r hr => (hrep.returned hr).1) s with ⟨r, s', hr⟩ | hpan
  · cases r with
    | ok tree => exact .inl ⟨tree, s', hr⟩
    | fix f => exact .inr ⟨f, s', hr⟩
    | err f =>
      obtain ⟨s1, h3⟩ := C39_err_only_if_declined h eps init ps g hg sv p hp tokens s s' f hr
      split at h3
      · obtain ⟨r, s2, h4, -⟩ := (hrep 0 hlen).1 _ s1
        rw [h4] at h3
        cases h3
      · obtain ⟨r, s2, h4, -⟩ := (hrep 0 hlen).2 _ s1
        rw [h4] at h3
        cases h3
  · refine absurd hpan (C18_no_panic_with_solver_partial h eps init ps g hg sv p hp e hem tokens hin ?_ ?_ s)
    · intro pos fp s hpos
      obtain ⟨r, s', h1, -, h2⟩ := (hrep pos hpos).1 fp s
      rw [h1]
      exact ⟨nofun, fun r' s'' hr => by cases hr; exact h2⟩
    · intro pos fps s hpos
      obtain ⟨r, s', h1, -, h2⟩ := (hrep pos hpos).2 fps s
      rw [h1]
      exact ⟨nofun, fun r' s'' hr => by cases hr; exact h2⟩

/-- **C93**, what it means for an LL(1) grammar: if the table also has no conflicts and no two equal non-terminals
stand side by side, then the result is `Ok`, with the parse tree of the whole input and without a call of the
solver, if the input is a sentence, and `Fix` if it is not. -/
theorem C93_sentence_or_fix (h : HashOrder T) (eps init : T) (ps : List (Production T))
    (g : Grammar T) (hg : Grammar.new h eps init ps = .ok g) (sv : Solver σ L T)
    (p : Parser σ L T) (hp : Built h g (some sv) p) (hcf : ConflictFree p.transitions)
    (hadj : NoAdjacentRepeat ps) (hnlr : NotLeftRecursive eps (vanishing eps ps))
    (e : T) (hem : EndMarked eps init e ps) (tokens : List (Token L T)) (hin : EndsWith e tokens)
    (hterm : SolverTerminates (some sv)) (hrep : AlwaysRepairs sv tokens) (s : σ) :
    (Sentence eps init ps (tokens.map (·.tType)) →
      ∃ tree, Parses p tokens s (.ok tree) s ∧ IsTree eps ps init tokens tree.root) ∧
    (¬ Sentence eps init ps (tokens.map (·.tType)) → ∃ f s', Parses p tokens s (.fix f) s') := by
  obtain ⟨p0, hp0⟩ := Parser.built_exists (σ := σ) (L := L) hg none
  have hcf0 := conflictFree_of_agree (Parser.agree_of_built hg hg hp hp0) hcf
  have hnlr0 : NotLeftRecursive eps ps := fun x v ⟨b, hb, hd⟩ =>
    hnlr x v ⟨b, Parser.Step.mono (fun q hq => by simp [vanishing, hq]) hb,
      Parser.Derives.mono (fun q hq => by simp [vanishing, hq]) hd⟩
  have h58 := C58_only_errors_change h h eps init ps g g hg hg p0 hp0 hcf0 sv p hp tokens s s
  obtain ⟨hs, hns⟩ := C22_decides h eps init ps g hg p0 hp0 hcf0 hadj hnlr0 e hem tokens hin s
  refine ⟨fun hsen => ?_, fun hsen => ?_⟩
  · obtain ⟨tree, h1, h2⟩ := hs hsen
    exact ⟨tree, (h58.1 tree s).2 ⟨rfl, h1⟩, h2⟩
  · rcases C93_always_repaired h eps init ps g hg sv p hp hnlr e hem tokens hin hterm hrep s with
      ⟨tree, s', hr⟩ | hf
    · obtain ⟨f, s1, hf⟩ := hns hsen
      exact absurd (Parser.Parses.det ((h58.1 tree s').1 hr).2 hf).1 (by simp)
    · exact hf

/-- Parts that lie side by side account for the tokens they span. -/
theorem fixAt_accounts {eps : T} {ps : List (Production T)} (hw : WellFormed eps ps)
    {solver : Option (Solver σ L T)} {tokens : List (Token L T)} (hacc : Accounts eps solver tokens)
    {x : T} {i j : Nat} {w : List (Token L T)} {fs : FixedSymbol L T}
    (h : FixAt eps ps solver tokens x i j w fs) (hi : i ≤ tokens.length) :
    i ≤ j ∧ j ≤ tokens.length ∧
      fixedLexemes eps fs = ((tokens.drop i).take (j - i)).filterMap (·.lex) := by
  revert hi
  refine FixAt.rec (eps := eps) (ps := ps) (solver := solver) (tokens := tokens)
    (motive_1 := fun _ i j _ fs _ => i ≤ tokens.length → i ≤ j ∧ j ≤ tokens.length ∧
      fixedLexemes eps fs = ((tokens.drop i).take (j - i)).filterMap (·.lex))
    (motive_2 := fun _ i j _ parts _ => i ≤ tokens.length → i ≤ j ∧ j ≤ tokens.length ∧
      partsLexemes eps parts = ((tokens.drop i).take (j - i)).filterMap (·.lex))
    ?_ ?_ ?_ ?_ ?_ h
  · intro x i r hr _
    simpa [fixedLexemes] using hacc _ _ hr
  · intro p i j w parts _ _ _ ih hi
    simpa [fixedLexemes, productionLexemes] using ih hi
  · intro i hi
    simpa [partsLexemes] using hi
  · intro x xs i j w w' n parts ht hpre _ ih hi
    have hle : i + w.length ≤ tokens.length := by
      have := hpre.length_le
      simp at this
      omega
    obtain ⟨h1, h2, h3⟩ := ih hle
    refine ⟨by omega, h2, ?_⟩
    have e : (tokens.drop i).take (j - i) =
        w ++ (tokens.drop (i + w.length)).take (j - (i + w.length)) := by
      obtain ⟨u, hu⟩ := hpre
      rw [← List.drop_drop, ← hu, List.drop_left, List.take_append,
        List.take_of_length_le (by omega)]
      congr 2
      omega
    rw [e, List.filterMap_append, partsLexemes, partLexemes, isTree_leaves hw ht, h3]
  · intro x xs i k j w w' fs parts _ _ _ ih1 ih2 hi
    obtain ⟨h1, h2, h3⟩ := ih1 hi
    obtain ⟨h4, h5, h6⟩ := ih2 h2
    refine ⟨by omega, h5, ?_⟩
    have e : (tokens.drop i).take (j - i) =
        (tokens.drop i).take (k - i) ++ (tokens.drop k).take (j - k) := by
      have : j - i = (k - i) + (j - k) := by omega
      rw [this, List.take_add, List.drop_drop]
      congr 3
      omega
    rw [e, List.filterMap_append, partsLexemes, partLexemes, h3, h6]

/-- Parts for symbols of which the last one is a terminal end behind a token of that type. -/
theorem partsAt_last {eps : T} {ps : List (Production T)} {solver : Option (Solver σ L T)}
    {tokens : List (Token L T)} {e : T} (hne : e ≠ eps) (hterm : ¬ IsNonTerminal ps e) (u : List T)
    {i j : Nat} {w : List (Token L T)} {parts : List (FixedProductionPart L T)}
    (h : PartsAt eps ps solver tokens (u ++ [e]) i j w parts) :
    ∃ k t, j = k + 1 ∧ tokens[k]? = some t ∧ t.tType = e := by
  induction u generalizing i w parts with
  | nil =>
    cases h with
    | ok _ _ _ _ w w' n parts h1 h2 h3 =>
      cases h3
      cases h1 with
      | leaf t _ _ =>
        refine ⟨i, t, rfl, ?_, rfl⟩
        obtain ⟨v, hv⟩ := h2
        have : (tokens.drop i)[0]? = some t := by rw [← hv]; rfl
        simpa using this
      | eps => exact absurd rfl hne
      | node q _ _ hq _ => exact absurd ⟨q, hq, rfl⟩ hterm
    | fixed _ _ _ _ _ _ _ _ _ h1 => exact absurd h1 hterm
  | cons x u ih =>
    cases h with
    | ok _ _ _ _ _ _ _ _ _ _ h3 => exact ih h3
    | fixed _ _ _ _ _ _ _ _ _ _ _ h3 => exact ih h3

/-- **C93**, no token is lost. Let every fix of the solver account for the tokens it spans. Then so does a `Fix`
result: its lexemes are, in order, those of the tokens from the first one up to some position. -/
theorem C93_no_token_lost (h : HashOrder T) (eps init : T) (ps : List (Production T))
    (g : Grammar T) (hg : Grammar.new h eps init ps = .ok g) (solver : Option (Solver σ L T))
    (p : Parser σ L T) (hp : Built h g solver p) (tokens : List (Token L T))
    (hacc : Accounts eps solver tokens) (s s' : σ) (f : FixedSymbol L T)
    (hr : Parses p tokens s (.fix f) s') :
    ∃ j, j ≤ tokens.length ∧ fixedLexemes eps f = (tokens.take j).filterMap (·.lex) := by
  obtain ⟨j, w, hf⟩ := C47_fix_parts_side_by_side h eps init ps g hg solver p hp tokens s s' f hr
  obtain ⟨-, h1, h2⟩ := fixAt_accounts (wellFormed_of_new hg) hacc hf (by omega)
  exact ⟨j, h1, by simpa using h2⟩

/-- **C93**, all tokens: if the grammar is end-marked and the last token is the only end marker, then a `Fix`
result accounts for the whole input, or it is the fix of the initial symbol that the solver returned at the first
token. -/
theorem C93_all_tokens (h : HashOrder T) (eps init : T) (ps : List (Production T))
    (g : Grammar T) (hg : Grammar.new h eps init ps = .ok g) (solver : Option (Solver σ L T))
    (p : Parser σ L T) (hp : Built h g solver p) (e : T) (hem : EndMarked eps init e ps)
    (tokens : List (Token L T)) (hin : EndsWith e tokens) (hacc : Accounts eps solver tokens) (s s' : σ)
    (f : FixedSymbol L T) (hr : Parses p tokens s (.fix f) s') :
    fixedLexemes eps f = tokens.filterMap (·.lex) ∨
      ∃ r, SolverReturned solver tokens 0 r ∧ f = .mk r.production init := by
  obtain ⟨j, w, hf⟩ := C47_fix_parts_side_by_side h eps init ps g hg solver p hp tokens s s' f hr
  obtain ⟨-, h1, h2⟩ := fixAt_accounts (wellFormed_of_new hg) hacc hf (by omega)
  generalize hx : init = x at hf
  generalize hi : 0 = i at hf
  cases hf with
  | solver _ _ r hr => subst hx hi; exact .inr ⟨r, hr, rfl⟩
  | built q _ _ _ parts hq hparts _ =>
    left
    obtain ⟨u, hu, -⟩ := hem.initial_ends q hq hx.symm
    rw [hu] at hparts
    obtain ⟨k, t, rfl, hk, ht⟩ := partsAt_last hem.ne_eps hem.terminal u hparts
    obtain ⟨ts, t', rfl, -, hts⟩ := hin
    have hkl : k = ts.length := by
      rcases Nat.lt_or_ge k ts.length with hlt | hge
      · rw [List.getElem?_append_left hlt] at hk
        exact absurd ht (hts t (List.mem_of_getElem? hk))
      · simp at h1
        omega
    subst hkl
    rw [h2, Nat.sub_zero, List.drop_zero, List.take_of_length_le (by simp)]

theorem takeWhile_stops {α : Type} (q : α → Bool) (l : List α) :
    (l.takeWhile q).length = l.length ∨ ∃ x, l[(l.takeWhile q).length]? = some x ∧ q x = false := by
  induction l with
  | nil => simp
  | cons a l ih =>
    cases h : q a with
    | false => exact .inr ⟨a, by simp [h], h⟩
    | true => simpa [List.takeWhile_cons, h] using ih

/-- **C93**, panic mode: whatever the synchronizing tokens, the solver that skips to the next one of them (at the
latest to the last token) always returns, always repairs, and accounts for the tokens it skips. It skips no
synchronizing token, and stops at one or at the last token. -/
theorem C93_panic_mode (sync : T → Bool) (eps : T) (tokens : List (Token L T)) :
    SolverTerminates (some (panicMode sync : Solver σ L T)) ∧
    AlwaysRepairs (panicMode sync : Solver σ L T) tokens ∧
    Accounts eps (some (panicMode sync : Solver σ L T)) tokens ∧
    ∀ pos r, SolverReturned (some (panicMode sync : Solver σ L T)) tokens pos r →
      (∀ i t, pos ≤ i → i < r.finalTokenPosition → tokens[i]? = some t → sync t.tType = false) ∧
      (r.finalTokenPosition + 1 = tokens.length ∨
        ∃ t, tokens[r.finalTokenPosition]? = some t ∧ sync t.tType = true) := by
  have hlt : ∀ pos, pos < tokens.length →
      pos + (skippedFrom sync tokens pos).length < tokens.length := by
    intro pos hpos
    have h1 : (skippedFrom sync tokens pos).length ≤ (tokens.drop pos).dropLast.length :=
      (List.takeWhile_prefix _).length_le
    simp at h1
    omega
  have hret : ∀ pos r, SolverReturned (some (panicMode sync : Solver σ L T)) tokens pos r →
      pos < tokens.length ∧ ∃ m, r = skipFix sync tokens pos m := by
    rintro pos r ⟨hpos, sv, s, s', he, hc⟩
    cases he
    rcases hc with ⟨fp, hc⟩ | ⟨fps, hc⟩
    · cases hc; exact ⟨hpos, _, rfl⟩
    · cases hc; exact ⟨hpos, _, rfl⟩
  have hpre : ∀ pos, skippedFrom sync tokens pos <+: tokens.drop pos := fun pos =>
    (List.takeWhile_prefix _).trans (List.dropLast_prefix _)
  refine ⟨?_, ?_, ?_, ?_⟩
  · rintro sv he
    cases he
    exact ⟨nofun, nofun⟩
  · intro pos hpos
    exact ⟨fun fp s => ⟨_, _, rfl, Nat.le_add_right _ _, hlt pos hpos⟩,
      fun fps s => ⟨_, _, rfl, Nat.le_add_right _ _, hlt pos hpos⟩⟩
  · intro pos r hr
    obtain ⟨hpos, m, rfl⟩ := hret pos r hr
    refine ⟨Nat.le_add_right _ _, (hlt pos hpos).le, ?_⟩
    simp only [skipFix, productionLexemes, partsLexemes, partLexemes, List.append_nil,
      Nat.add_sub_cancel_left]
    rw [← List.prefix_iff_eq_take.1 (hpre pos)]
  · intro pos r hr
    obtain ⟨hpos, m, rfl⟩ := hret pos r hr
    simp only [skipFix]
    refine ⟨?_, ?_⟩
    · intro i t h1 h2 ht
      obtain ⟨v, hv⟩ := hpre pos
      obtain ⟨k, rfl⟩ := Nat.exists_eq_add_of_le h1
      rw [← List.getElem?_drop, ← hv, List.getElem?_append_left (by omega)] at ht
      have := List.all_eq_true.1 List.all_takeWhile _ (List.mem_of_getElem? ht)
      simpa using this
    · have hl : (tokens.drop pos).dropLast.length + 1 = tokens.length - pos := by
        simp
        omega
      rcases takeWhile_stops (fun t : Token L T => !sync t.tType) (tokens.drop pos).dropLast with h1 | ⟨t, h1, h2⟩
      · left
        unfold skippedFrom
        omega
      · right
        refine ⟨t, ?_, by simpa using h2⟩
        rw [← List.getElem?_drop]
        obtain ⟨v, hv⟩ := List.dropLast_prefix (tokens.drop pos)
        rw [← hv, List.getElem?_append_left (by
          obtain ⟨h3, -⟩ := List.getElem?_eq_some_iff.1 h1
          exact h3)]
        exact h1

/-- The input `( id id ) $`, with the lexemes 1 to 5. -/
def idId : List (Token Nat Nat) := [⟨some 1, 13⟩, ⟨some 2, 15⟩, ⟨some 3, 15⟩, ⟨some 4, 14⟩, ⟨some 5, 16⟩]

/-- The derivation `T → F T'` with `F → id` for the given lexeme, and the gap in place of `T'`. -/
def idThenGap (lexeme skipped : Nat) : FixedSymbol Nat Nat :=
  .mk (.mk [.ok (.mk [.mk [] ⟨some lexeme, 15⟩] ⟨none, 6⟩), .fixed (.mk (.mk [.gap ⟨[skipped], []⟩]) 5)]) 4

/-- `E → T E'` with `E' → ε`, for a fixed `T`. -/
def fixedTerm (f : FixedSymbol Nat Nat) : FixedSymbol Nat Nat :=
  .mk (.mk [.fixed f, .ok (.mk [.mk [] ⟨none, 0⟩] ⟨none, 3⟩)]) 2

/-- `( E )` for a fixed `E`, as a `T`. -/
def inParentheses (open_ close : Nat) (f : FixedSymbol Nat Nat) : FixedSymbol Nat Nat :=
  .mk (.mk [.fixed (.mk (.mk [.ok (.mk [] ⟨some open_, 13⟩), .fixed f, .ok (.mk [] ⟨some close, 14⟩)]) 6),
    .ok (.mk [.mk [] ⟨none, 0⟩] ⟨none, 5⟩)]) 4

/-- `E $` for a fixed `E`. -/
def atEnd (lexeme : Nat) (f : FixedSymbol Nat Nat) : FixedSymbol Nat Nat :=
  .mk (.mk [.fixed f, .ok (.mk [] ⟨some lexeme, 16⟩)]) 1

/-- The hypotheses of the theorems above are met: the grammar of expressions, panic mode with the synchronizing
tokens `)` and `+`, the input `( id id ) $`. The second `id` is skipped where `T'` is expected, behind it parsing
goes on, and no lexeme is lost. With `id id $`, and no synchronizing token on the way, everything up to `$` is. -/
example : ∃ g p, Grammar.new (HashOrder.id Nat) 0 1 exprPs = .ok g ∧
    Built (HashOrder.id Nat) g (some (panicMode (σ := Unit) (fun a => a == 14 || a == 11))) p ∧
    ConflictFree p.transitions ∧ NoAdjacentRepeat exprPs ∧ NotLeftRecursive 0 (vanishing 0 exprPs) ∧
    EndMarked 0 1 16 exprPs ∧ EndsWith 16 idId ∧
    Parses p idId () (.fix (atEnd 5 (fixedTerm (inParentheses 1 4 (fixedTerm (idThenGap 2 3)))))) () ∧
    fixedLexemes 0 (atEnd 5 (fixedTerm (inParentheses 1 4 (fixedTerm (idThenGap 2 3))))) = [1, 2, 3, 4, 5] ∧
    Parses p [⟨some 1, 15⟩, ⟨some 2, 15⟩, ⟨some 3, 16⟩] () (.fix (atEnd 3 (fixedTerm (idThenGap 1 2)))) () ∧
    fixedLexemes 0 (atEnd 3 (fixedTerm (idThenGap 1 2))) = [1, 2, 3] := by
  have hp : ∃ g p, Grammar.new (HashOrder.id Nat) 0 1 exprPs = .ok g ∧
      Built (HashOrder.id Nat) g (some (panicMode (σ := Unit) (fun a => a == 14 || a == 11))) p ∧
      Parses p idId () (.fix (atEnd 5 (fixedTerm (inParentheses 1 4 (fixedTerm (idThenGap 2 3)))))) () ∧
      Parses p [⟨some 1, 15⟩, ⟨some 2, 15⟩, ⟨some 3, 16⟩] () (.fix (atEnd 3 (fixedTerm (idThenGap 1 2)))) () :=
    ⟨_, _, rfl, Parser.built_of_eval_solver (n := 10) rfl, Parser.parse_returns (n := 30) rfl,
      Parser.parse_returns (n := 30) rfl⟩
  obtain ⟨g, p, hg, hp, h1, h3⟩ := hp
  refine ⟨g, p, hg, hp, exprPs_conflictFree p _ g hg _ hp, exprPs_noAdjacentRepeat, ?_, exprPs_endMarked,
    ⟨[⟨some 1, 13⟩, ⟨some 2, 15⟩, ⟨some 3, 15⟩, ⟨some 4, 14⟩], ⟨some 5, 16⟩, rfl, rfl, by decide⟩, h1,
    by simp [fixedLexemes, productionLexemes, partsLexemes, partLexemes, atEnd, fixedTerm, inParentheses, idThenGap,
      leaves, leavesList], h3,
    by simp [fixedLexemes, productionLexemes, partsLexemes, partLexemes, atEnd, fixedTerm, idThenGap, leaves,
      leavesList]⟩
  exact notLeftRecursive_of_rank (fun x => 1 ≤ x && x ≤ 6)
    (fun x => if x = 1 then 5 else if x = 2 then 4 else if x = 4 then 3 else if x = 6 then 2 else
      if x = 3 then 1 else if x = 5 then 1 else 0) (by decide)

end Verif.Props
