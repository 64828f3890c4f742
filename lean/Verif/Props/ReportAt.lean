import Verif.Proof.ReportDepth
import Verif.Props.Predictive
import Verif.Props.Depth

/-!
# Property C76: failure reports and positions
-/

set_option linter.unusedSectionVars false

namespace Verif.Props

open Verif.Spec Verif.Examples

variable {σ L T : Type} [DecidableEq T]

/-- **C76.** An `Err` report describes a failure at the first token: every failed symbol in it fails at the
position where the symbols before it in the production end, with all candidates of its cell for the token
there. -/
theorem C76_report_positions (h : HashOrder T) (eps init : T) (ps : List (Production T))
    (g : Grammar T) (hg : Grammar.new h eps init ps = .ok g) (hinit : IsNonTerminal ps init)
    (solver : Option (Solver σ L T)) (p : Parser σ L T) (hp : Built h g solver p)
    (tokens : List (Token L T)) (s s' : σ) (f : FailedSymbol L T) (hr : Parses p tokens s (.err f) s') :
    FailsAt eps ps (candidates p.transitions) solver tokens init 0 f := by
  obtain ⟨P, hs⟩ := Parser.tableParser_of_built hg hp
  rw [candidates_eq]
  cases tokens with
  | nil => obtain ⟨n, hn⟩ := Parser.parses_at hr; simp [Parser.parseFromTokens] at hn
  | cons t ts =>
    obtain ⟨o, h1, h2⟩ := ((Parser.Recovery.parse_iff_choice P.toParserOf t ts s).1 _ _).1 hr
    rw [hs] at h1
    match o, h1, h2 with
    | .failed f' s1, h1, h2 =>
      simp only [Recovery.result, Option.some.injEq, Prod.mk.injEq, ParseResult.err.injEq] at h2
      obtain ⟨rfl, rfl⟩ := h2
      obtain ⟨fps, rfl, h3⟩ := Parser.Recovery.choice_fails P.cand h1 _ _ rfl
      exact .nonTerminal _ _ t _ hinit rfl h3
    | .found (.node _ _ _) _, _, h2 => simp [Recovery.result] at h2
    | .found (.fixed _ _) _, _, h2 => simp [Recovery.result] at h2
    | .panicked, _, h2 => simp [Recovery.result] at h2

/-- **C76**, without conflicts and without a solver this is exact: the result is `Err` with exactly this
report. -/
theorem C76_conflict_free_exact (h : HashOrder T) (eps init : T) (ps : List (Production T))
    (g : Grammar T) (hg : Grammar.new h eps init ps = .ok g) (hinit : IsNonTerminal ps init)
    (p : Parser σ L T) (hp : Built h g none p) (hcf : ConflictFree p.transitions)
    (tokens : List (Token L T)) (s s' : σ) (f : FailedSymbol L T) :
    Parses p tokens s (.err f) s' ↔
      s' = s ∧ FailsAt eps ps (candidates p.transitions) (none : Option (Solver σ L T)) tokens init 0 f := by
  obtain ⟨P, hs⟩ := Parser.tableParser_of_built hg hp
  have hback : FailsAt eps ps (candidates p.transitions) (none : Option (Solver σ L T)) tokens init 0 f →
      Parses p tokens s (.err f) s := by
    intro hf
    rw [candidates_eq] at hf
    obtain ⟨t, ht, hc⟩ := (Parser.Recovery.seq_of_failsAt (Parser.conflictFree_length hcf) P.grammar.wf hf).2 hinit
    cases tokens with
    | nil => simp at ht
    | cons t' ts =>
      simp only [List.getElem?_cons_zero, Option.some.injEq] at ht
      subst ht
      refine ((Parser.Recovery.parse_iff_choice P.toParserOf t' ts s).1 _ _).2 ⟨.failed f s, ?_, rfl⟩
      rw [hs]
      exact hc true s
  constructor
  · intro hr
    have hf := C76_report_positions h eps init ps g hg hinit none p hp tokens s s' f hr
    exact ⟨(Parser.Parses.det hr (hback hf)).2, hf⟩
  · rintro ⟨rfl, hf⟩
    exact hback hf

/-- **C76**, depth: without left recursion, and with a solver whose fixes end behind the position they are for
(or with none), the failed symbols of a report are nested at most `N · n + 1` deep, for `N` non-terminals and
`n` tokens. -/
theorem C76_report_depth (h : HashOrder T) (eps init : T) (ps : List (Production T))
    (g : Grammar T) (hg : Grammar.new h eps init ps = .ok g) (hinit : IsNonTerminal ps init)
    (hnlr : NotLeftRecursive eps ps) (solver : Option (Solver σ L T)) (p : Parser σ L T)
    (hp : Built h g solver p) (tokens : List (Token L T)) (hprog : SolverProgress solver tokens) (s s' : σ)
    (f : FailedSymbol L T) (hr : Parses p tokens s (.err f) s') :
    reportDepth f ≤ nonTerminalCount ps * tokens.length + 1 := by
  obtain ⟨P, _⟩ := Parser.tableParser_of_built hg hp
  have hf := C76_report_positions h eps init ps g hg hinit solver p hp tokens s s' f hr
  rw [candidates_eq] at hf
  obtain ⟨h1, h2⟩ := (Parser.Recovery.failsAt_depth P.grammar.wf hnlr P.cand hprog hf).1 hinit
  have h3 := Parser.cornerRank_lt_card hnlr hinit
  have hN : (Parser.nts ps).card = nonTerminalCount ps := by
    rw [Parser.nts, List.card_toFinset, nonTerminalCount]
  rw [hN] at h2 h3
  have h4 : nonTerminalCount ps * (tokens.length - 0 - 1) + nonTerminalCount ps =
      nonTerminalCount ps * tokens.length := by
    rw [← Nat.mul_succ]
    congr 1
    omega
  omega

/-- `n` symbols `a` and a `c`. -/
def listJunk (n : Nat) : List (Token Unit Nat) := List.replicate n ⟨none, 10⟩ ++ [⟨none, 12⟩]

/-- The report of the list grammar for `k` symbols `a` and a `c`. -/
def listReport : Nat → FailedSymbol Unit Nat
  | 0 => .mk [] 1
  | k + 1 => .mk [.mk (listReport k) [.ok (.mk [] ⟨none, 10⟩)] []] 1

theorem listReport_depth (k : Nat) : reportDepth (listReport k) = k + 1 := by
  induction k with
  | zero => rfl
  | succ k ih =>
    rw [listReport, reportDepth, reportDepthList, reportDepthProduction, reportDepthList, ih]
    omega

/-- Depths proportional to the number of tokens do occur: `S → a S | b` on `n` symbols `a` and a `c`. The
hypotheses of all parts of C76 are met here. -/
theorem C76_depth_grows : ∃ g p, Grammar.new (HashOrder.id Nat) 0 1 listPs = .ok g ∧
    Built (σ := Unit) (L := Unit) (HashOrder.id Nat) g none p ∧ IsNonTerminal listPs 1 ∧
    ConflictFree p.transitions ∧ NotLeftRecursive 0 listPs ∧ nonTerminalCount listPs = 1 ∧
    ∀ n, (listJunk n).length = n + 1 ∧
      ∃ f, Parses p (listJunk n) () (.err f) () ∧ reportDepth f = n + 1 := by
  obtain ⟨g, p, hg, hp, hall, h1, h2⟩ : ∃ g p,
      Grammar.new (HashOrder.id Nat) 0 1 listPs = .ok g ∧
      Built (σ := Unit) (L := Unit) (HashOrder.id Nat) g none p ∧
      (∀ x ∈ listPs.map (·.input), ∀ a ∈ listPs.flatMap (·.output),
        ((p.transitions.getProductions x a).getD []).length ≤ 1) ∧
      candidates p.transitions 1 10 = [[10, 1]] ∧ candidates p.transitions 1 12 = [] :=
    ⟨_, _, rfl, Parser.built_of_eval (n := 10) rfl, by decide, rfl, rfl⟩
  have hcf := conflictFree_of_check hg hp hall
  have hx : IsNonTerminal listPs 1 := by unfold IsNonTerminal; decide
  have ha : ¬ IsNonTerminal listPs 10 := by unfold IsNonTerminal; decide
  refine ⟨g, p, hg, hp, hx, hcf,
    notLeftRecursive_of_rank (fun _ => false) (fun x => if x = 1 then 1 else 0) (by decide), rfl, fun n =>
    ⟨by simp [listJunk], listReport n, ?_, listReport_depth n⟩⟩
  refine (C76_conflict_free_exact _ 0 1 listPs g hg hx p hp hcf (listJunk n) () () _).2 ⟨rfl, ?_⟩
  have key : ∀ k i, i + k = n → FailsAt 0 listPs (candidates p.transitions)
      (none : Option (Solver Unit Unit Nat)) (listJunk n) 1 i (listReport k) := by
    intro k
    induction k with
    | zero =>
      intro i hi
      refine .nonTerminal 1 i ⟨none, 12⟩ [] hx ?_ ?_
      · unfold listJunk
        have hi' : i = n := by omega
        subst hi'
        rw [List.getElem?_append_right (by simp)]
        simp
      · show EachFailsAt _ _ _ _ _ i (candidates p.transitions 1 12) []
        rw [h2]
        exact .nil i
    | succ k ih =>
      intro i hi
      have hget : (listJunk n)[i]? = some ⟨none, 10⟩ := by
        unfold listJunk
        rw [List.getElem?_append_left (by rw [List.length_replicate]; omega), List.getElem?_replicate,
          if_pos (by omega)]
      refine .nonTerminal 1 i ⟨none, 10⟩ _ hx hget ?_
      show EachFailsAt _ _ _ _ _ i (candidates p.transitions 1 10) _
      rw [h1]
      exact .cons i (i + 1) [10] 1 [] (listReport k) [.ok (.mk [] ⟨none, 10⟩)] [] []
        (.terminal [] i (i + 1) ⟨none, 10⟩ [] ha (by decide) hget (.nil _)) (ih (i + 1) (by omega)) (.nil i)
  exact key n 0 (by omega)

end Verif.Props
