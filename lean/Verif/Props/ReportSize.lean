import Verif.Proof.ReportSize
import Verif.Props.Calls
import Verif.Props.Recovery
import Verif.Props.ReportAt

/-!
# Property C77: the size of failure reports
-/

set_option linter.unusedSectionVars false

namespace Verif.Props

open Verif.Spec Verif.Examples

variable {σ L T : Type} [DecidableEq T]

/-- **C77**, conflict-free tables: for a grammar without left recursion the report has at most
`N * n + 1` failed symbols, for `N` non-terminals and `n` tokens, with any solver whose fixes end
behind the position they are asked for. -/
theorem C77_linear_report (h : HashOrder T) (eps init : T) (ps : List (Production T))
    (g : Grammar T) (hg : Grammar.new h eps init ps = .ok g) (hinit : IsNonTerminal ps init)
    (hnlr : NotLeftRecursive eps ps) (solver : Option (Solver σ L T)) (p : Parser σ L T)
    (hp : Built h g solver p) (hcf : ConflictFree p.transitions) (tokens : List (Token L T))
    (hprog : SolverProgress solver tokens) (s s' : σ)
    (f : FailedSymbol L T) (hr : Parses p tokens s (.err f) s') :
    reportSize f ≤ nonTerminalCount ps * tokens.length + 1 := by
  have hf := C76_report_positions h eps init ps g hg hinit solver p hp tokens s s' f hr
  have hd := C76_report_depth h eps init ps g hg hinit hnlr solver p hp tokens hprog s s' f hr
  have hs := (Parser.Recovery.failsAt_size (w := 1) (by
    intro x a
    rw [← Parser.getTokenProductions_eq]
    exact Parser.conflictFree_length hcf x a) hf).2
  have h1 : ∀ d, ((List.range d).map (1 ^ ·)).sum = d := by
    intro d
    induction d with
    | zero => rfl
    | succ d ih => rw [List.range_succ, List.map_append, List.sum_append, ih]; simp
  rw [h1] at hs
  omega

/-- The hypotheses are met by reports of any size (`C76_depth_grows`): the reports of `S → a S | b`. -/
example : ∃ g p, Grammar.new (HashOrder.id Nat) 0 1 listPs = .ok g ∧
    Built (σ := Unit) (L := Unit) (HashOrder.id Nat) g none p ∧ IsNonTerminal listPs 1 ∧
    ConflictFree p.transitions ∧ NotLeftRecursive 0 listPs ∧
    ∀ n, ∃ f, Parses p (listJunk n) () (.err f) () ∧ reportDepth f = n + 1 := by
  obtain ⟨g, p, h1, h2, h3, h4, h5, _, h6⟩ := C76_depth_grows
  exact ⟨g, p, h1, h2, h3, h4, h5, fun n => (h6 n).2⟩

/-- **C77**, all tables: if no cell of the table has more than `w` productions, the report has at most
`1 + w + w ^ 2 + … + w ^ (N * n)` failed symbols. -/
theorem C77_report_bound (h : HashOrder T) (eps init : T) (ps : List (Production T))
    (g : Grammar T) (hg : Grammar.new h eps init ps = .ok g) (hinit : IsNonTerminal ps init)
    (hnlr : NotLeftRecursive eps ps) (solver : Option (Solver σ L T)) (p : Parser σ L T)
    (hp : Built h g solver p) (w : Nat) (hw : ∀ x a, (candidates p.transitions x a).length ≤ w)
    (tokens : List (Token L T)) (hprog : SolverProgress solver tokens) (s s' : σ)
    (f : FailedSymbol L T) (hr : Parses p tokens s (.err f) s') :
    reportSize f ≤ ((List.range (nonTerminalCount ps * tokens.length + 1)).map (w ^ ·)).sum := by
  have hf := C76_report_positions h eps init ps g hg hinit solver p hp tokens s s' f hr
  have hd := C76_report_depth h eps init ps g hg hinit hnlr solver p hp tokens hprog s s' f hr
  refine (Parser.Recovery.failsAt_size hw hf).2.trans ?_
  have hmono : ∀ a b, a ≤ b → ((List.range a).map (w ^ ·)).sum ≤ ((List.range b).map (w ^ ·)).sum := by
    intro a b hab
    obtain ⟨k, rfl⟩ := Nat.exists_eq_add_of_le hab
    rw [List.range_add, List.map_append, List.sum_append]
    omega
  exact hmono _ _ hd

/-- `n` symbols `a`, then a token that is not in the grammar. -/
def closersJunk (n : Nat) : List (Token Unit Nat) := List.replicate n ⟨none, 10⟩ ++ [⟨none, 14⟩]

/-- The report of `S → a S b | a S c | d` for `k` symbols `a` and a token that is not in the grammar. -/
def closersReport : Nat → FailedSymbol Unit Nat
  | 0 => .mk [] 1
  | k + 1 => .mk [.mk (closersReport k) [.ok (.mk [] ⟨none, 10⟩)] [11],
      .mk (closersReport k) [.ok (.mk [] ⟨none, 10⟩)] [12]] 1

theorem closersReport_size (k : Nat) : reportSize (closersReport k) + 1 = 2 ^ (k + 1) := by
  induction k with
  | zero => rfl
  | succ k ih =>
    rw [closersReport, reportSize, reportSizeList, reportSizeProduction, reportSizeList,
      reportSizeProduction, reportSizeList, Nat.pow_succ]
    omega

theorem closers_choice {cand : Nat → Nat → List (List Nat)} (ha : cand 1 10 = [[10, 1, 11], [10, 1, 12]])
    (hd : cand 1 14 = []) (n : Nat) : ∀ k pos, pos + k = n → ∀ sg s, ∃ t,
      (closersJunk n)[pos]? = some t ∧
      Recovery.Choice 0 closersPs cand (none : Option (Solver Unit Unit Nat)) (closersJunk n) 1 pos
        (cand 1 t.tType) sg s (.failed (closersReport k) s) := by
  have hS : IsNonTerminal closersPs 1 := ⟨_, List.mem_cons_self, rfl⟩
  have hT : ¬ IsNonTerminal closersPs 10 := by unfold IsNonTerminal; decide
  intro k
  induction k with
  | zero =>
    intro pos hpos sg s
    obtain rfl : pos = n := by omega
    refine ⟨⟨none, 14⟩, ?_, ?_⟩
    · simp [closersJunk]
    · rw [hd]
      exact .failed 1 pos [] sg s s s [] (.none _ _ _ _) rfl
  | succ k ih =>
    intro pos hpos sg s
    have ht : (closersJunk n)[pos]? = some ⟨none, 10⟩ := by
      simp [closersJunk, List.getElem?_append, show pos < n by omega]
    refine ⟨_, ht, ?_⟩
    rw [ha]
    have hseq : ∀ y, Recovery.Seq 0 closersPs cand (none : Option (Solver Unit Unit Nat)) (closersJunk n)
        (sg && decide (([[10, 1, 11], [10, 1, 12]] : List (List Nat)).length = 1)) [10, 1, y] pos s
        (.failed (closersReport k, [.ok (.mk [] ⟨none, 10⟩)]) s) := by
      intro y
      obtain ⟨t, ht', hc⟩ := ih (pos + 1) (by omega)
        (sg && decide (([[10, 1, 11], [10, 1, 12]] : List (List Nat)).length = 1)) s
      exact Recovery.Seq.terminal (eps := 0) (ps := closersPs) (cand := cand) _ [1, y] pos s ⟨none, 10⟩ _
        hT (by decide) ht (.failed _ 1 [y] (pos + 1) s s t _ hS ht' hc)
    have halts := Recovery.Alts.next (eps := 0) (ps := closersPs) (cand := cand) 1 pos _ [10, 1, 11]
      [[10, 1, 12]] s _ _ _ _ (hseq 11)
      (Recovery.Alts.next (eps := 0) (ps := closersPs) (cand := cand) 1 pos _ [10, 1, 12] [] s _ _ _ _
        (hseq 12) (.none _ _ _ _))
    exact Recovery.Choice.failed (eps := 0) (ps := closersPs) (cand := cand) 1 pos _ sg s _ _ _ halts rfl

/-- With conflicts the report can be exponential: the parser of `S → a S b | a S c | d` (not
left-recursive, not ambiguous, two productions in one cell) gives a report of `2 ^ (n + 1) - 1` failed
symbols for `n` symbols `a` and one unexpected token. The hypotheses of `C77_report_bound` are met, and
its bound is reached up to a factor of two. -/
theorem C77_exponential_report : NotLeftRecursive 0 closersPs ∧ IsNonTerminal closersPs 1 ∧
    nonTerminalCount closersPs = 1 ∧ ∃ g p,
    Grammar.new (HashOrder.id Nat) 0 1 closersPs = .ok g ∧
    Built (σ := Unit) (L := Unit) (HashOrder.id Nat) g none p ∧
    ∀ n, (closersJunk n).length = n + 1 ∧
      ∃ f, Parses p (closersJunk n) () (.err f) () ∧ reportSize f + 1 = 2 ^ (n + 1) := by
  refine ⟨notLeftRecursive_of_rank (fun _ => false) (fun x => if x = 1 then 1 else 0) (by decide),
    ⟨_, List.mem_cons_self, rfl⟩, rfl, ?_⟩
  obtain ⟨g, p, hg, hp, ha, hd⟩ : ∃ g p, Grammar.new (HashOrder.id Nat) 0 1 closersPs = .ok g ∧
      Built (σ := Unit) (L := Unit) (HashOrder.id Nat) g none p ∧
      candidates p.transitions 1 10 = [[10, 1, 11], [10, 1, 12]] ∧ candidates p.transitions 1 14 = [] :=
    ⟨_, _, rfl, Parser.built_of_eval (n := 10) rfl, rfl, rfl⟩
  refine ⟨g, p, hg, hp, fun n => ⟨by simp [closersJunk], closersReport n, ?_, closersReport_size n⟩⟩
  obtain ⟨t, ht, hc⟩ := closers_choice ha hd n n 0 (by omega) true ()
  obtain ⟨t', ts, hts⟩ : ∃ t ts, closersJunk n = t :: ts := by
    cases n with
    | zero => exact ⟨_, _, rfl⟩
    | succ n => exact ⟨_, _, rfl⟩
  rw [hts] at ht hc ⊢
  simp only [List.getElem?_cons_zero, Option.some.injEq] at ht
  subst ht
  exact ((C38_exact_result _ 0 1 closersPs g hg none p hp _ ts ()).1 _ _).2 ⟨_, hc, rfl⟩

end Verif.Props
