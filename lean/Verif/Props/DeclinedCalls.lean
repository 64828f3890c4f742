import Verif.Proof.DeclinedCalls
import Verif.Props.CallOrder
import Verif.Props.ReportSize
import Verif.Props.FixKept
import Verif.Props.Predictive

/-!
# Property C80: how often a solver that declines is asked
-/

set_option linter.unusedSectionVars false

namespace Verif.Props

open Verif.Spec Verif.Examples

variable {σ L T : Type} [DecidableEq T]

/-- Logging the calls does not change the fixes. -/
theorem progress_logCalls {sv : Solver σ L T} {tokens : List (Token L T)}
    (h : SolverProgress (some sv) tokens) : SolverProgress (some (logCalls sv)) tokens := by
  intro pos r hr
  refine h pos r ?_
  obtain ⟨hpos, sv', s, s', e, hr⟩ := hr
  cases e
  refine ⟨hpos, sv, s.1, s'.1, rfl, ?_⟩
  rcases hr with ⟨f, hr⟩ | ⟨f, hr⟩
  · refine .inl ⟨f, ?_⟩
    simp only [logCalls] at hr
    split at hr <;> simp only [Out.ok.injEq, Prod.mk.injEq, reduceCtorEq] at hr
    next o s1 e =>
      obtain ⟨rfl, rfl⟩ := hr
      exact e
  · refine .inr ⟨f, ?_⟩
    simp only [logCalls] at hr
    split at hr <;> simp only [Out.ok.injEq, Prod.mk.injEq, reduceCtorEq] at hr
    next o s1 e =>
      obtain ⟨rfl, rfl⟩ := hr
      exact e

/-- **C80**, conflict-free tables: for a grammar without left recursion with `N` non-terminals and outputs
of at most `m` symbols, a solver that declined whenever it was asked while `n` tokens were parsed was asked
at most `m * (N * n + 1)` times. (Fixes it could have returned are to end behind the position asked for.) -/
theorem C80_linear_calls (h : HashOrder T) (eps init : T) (ps : List (Production T))
    (g : Grammar T) (hg : Grammar.new h eps init ps = .ok g) (hinit : IsNonTerminal ps init)
    (hnlr : NotLeftRecursive eps ps) (m : Nat) (hm : ∀ q ∈ ps, q.output.length ≤ m) (sv : Solver σ L T)
    (p : Parser (σ × List (LoggedCall L T)) L T) (hp : Built h g (some (logCalls sv)) p)
    (hcf : ConflictFree p.transitions) (tokens : List (Token L T))
    (hprog : SolverProgress (some sv) tokens) (s s' : σ) (r : ParseResult L T)
    (log : List (LoggedCall L T)) (hr : Parses p tokens (s, []) r (s', log))
    (hno : ∀ c ∈ log, c.fixed = false) :
    log.length ≤ m * (nonTerminalCount ps * tokens.length + 1) := by
  obtain ⟨h1, h2, h3⟩ := C41_last_answer_decides h eps init ps g hg sv p hp hcf tokens s s' r log hr
  cases r with
  | ok tree =>
    rw [h1.1 ⟨tree, rfl⟩]
    simp
  | fix fs =>
    obtain ⟨c, hc, hf⟩ := h2.1 ⟨fs, rfl⟩
    have := hno c (List.mem_of_getLast? hc)
    simp [hf] at this
  | err f =>
    have hsize := C77_linear_report h eps init ps g hg hinit hnlr _ p hp hcf tokens
      (progress_logCalls hprog) _ _ f hr
    refine Nat.le_trans ?_ (Nat.mul_le_mul_left m hsize)
    have P := (Parser.tableParser_of_built hg hp).1.toParserOf
    have hpos : 0 < m := by
      obtain ⟨q, hq, rfl⟩ := hinit
      have h1 : q.output ≠ [] := (P.grammar.wf q hq).2.1
      have h2 := List.length_pos_of_ne_nil h1
      have := hm q hq
      omega
    cases tokens with
    | nil =>
      obtain ⟨n, hn⟩ := Parser.parses_at hr
      simp [Parser.parseFromTokens] at hn
    | cons t ts =>
      obtain ⟨o, ho, hres⟩ := ((C38_exact_result h eps init ps g hg _ p hp t ts (s, [])).1 _ _).1 hr
      have hlen : ∀ x a, (candidates p.transitions x a).length ≤ 1 := by
        intro x a
        rw [candidates_eq]
        exact Parser.conflictFree_length hcf x a
      have hout : ∀ x a, ∀ o ∈ candidates p.transitions x a, o.length ≤ m := by
        intro x a o ho
        rw [candidates_eq] at ho
        exact hm _ (P.cand x a o ho)
      have := Parser.Recovery.choice_atMost hpos hlen hout ho (hlen _ _) (hout _ _)
      match o, this, hres with
      | .found (.node _ _ _) _, _, hres => simp [Recovery.result] at hres
      | .found (.fixed _ _) _, _, hres => simp [Recovery.result] at hres
      | .failed _ _, ⟨new, h1, h2⟩, hres =>
        simp only [Recovery.result, Option.some.injEq, Prod.mk.injEq, ParseResult.err.injEq] at hres
        obtain ⟨rfl, rfl⟩ := hres
        simp only [List.nil_append] at h1
        subst h1
        exact h2 hno
      | .panicked, _, hres => simp [Recovery.result] at hres

/-- The hypotheses are met, by a run with four calls: `S → A A A b`, `A → a` on `a a a c`. The symbols `A`,
which were parsed, have no candidates left and are offered to the solver one after the other, without any
failed production; then the production of `S` is. -/
example : ∃ g p f fpS,
    Grammar.new (HashOrder.id Nat) 0 1 [⟨1, [2, 2, 2, 11]⟩, ⟨2, [10]⟩] = .ok g ∧
    Built (HashOrder.id Nat) g (some (logCalls decliner)) p ∧ ConflictFree p.transitions ∧
    NotLeftRecursive 0 [(⟨1, [2, 2, 2, 11]⟩ : Production Nat), ⟨2, [10]⟩] ∧
    IsNonTerminal [(⟨1, [2, 2, 2, 11]⟩ : Production Nat), ⟨2, [10]⟩] 1 ∧
    Parses p [⟨none, 10⟩, ⟨none, 10⟩, ⟨none, 10⟩, ⟨none, 12⟩] ((), []) (.err f)
      ((), [⟨2, [], false⟩, ⟨1, [], false⟩, ⟨0, [], false⟩, ⟨0, [fpS], false⟩]) := by
  obtain ⟨g, p, f, fpS, hg, hp, hall, h1⟩ : ∃ g p f fpS,
      Grammar.new (HashOrder.id Nat) 0 1 [⟨1, [2, 2, 2, 11]⟩, ⟨2, [10]⟩] = .ok g ∧
      Built (HashOrder.id Nat) g (some (logCalls decliner)) p ∧
      (∀ x ∈ [1, 2], ∀ a ∈ [2, 2, 2, 11, 10],
        ((p.transitions.getProductions x a).getD []).length ≤ 1) ∧
      Parses p [⟨none, 10⟩, ⟨none, 10⟩, ⟨none, 10⟩, ⟨none, 12⟩] ((), []) (.err f)
        ((), [⟨2, [], false⟩, ⟨1, [], false⟩, ⟨0, [], false⟩, ⟨0, [fpS], false⟩]) :=
    ⟨_, _, _, _, rfl, Parser.built_of_eval_solver (n := 10) rfl, by decide,
      Parser.parse_returns (n := 30) rfl⟩
  exact ⟨g, p, f, fpS, hg, hp, conflictFree_of_check hg hp hall,
    notLeftRecursive_of_rank (fun _ => false) (fun x => if x = 1 then 2 else if x = 2 then 1 else 0)
      (by decide), ⟨_, List.mem_cons_self, rfl⟩, h1⟩

/-! ## Tables with conflicts -/

/-- `L → A L | b`, `A → a | a a`, with `L = 1, A = 2, a = 10, b = 11`. -/
def runPs : List (Production Nat) := [⟨1, [2, 1]⟩, ⟨1, [11]⟩, ⟨2, [10]⟩, ⟨2, [10, 10]⟩]

/-- A solver that declines and counts its calls. -/
def declineAndCount : Solver Nat Unit Nat where
  fixFailedProduction _ _ _ := fun n => .ok (none, n + 1)
  fixFailedProductions _ _ _ := fun n => .ok (none, n + 1)

/-- `n` symbols `a`, then a token that is not in the grammar. -/
def runInput (n : Nat) : List (Token Unit Nat) := List.replicate n ⟨none, 10⟩ ++ [⟨none, 13⟩]

/-- The number of solver calls for `L` with `k` symbols `a` to come. -/
def runCalls : Nat → Nat
  | 0 => 1
  | 1 => 3
  | k + 2 => runCalls (k + 1) + runCalls k + 2

theorem runCalls_ge : ∀ k, runCalls k ≤ runCalls (k + 1) ∧ 2 ^ (k / 2) ≤ runCalls k := by
  intro k
  induction k using Nat.strongRecOn with
  | ind k ih =>
    match k, ih with
    | 0, _ => exact ⟨by decide, by decide⟩
    | 1, _ => exact ⟨by decide, by decide⟩
    | k + 2, ih =>
      obtain ⟨h1, h2⟩ := ih k (by omega)
      obtain ⟨h3, h4⟩ := ih (k + 1) (by omega)
      have e1 : runCalls (k + 2) = runCalls (k + 1) + runCalls k + 2 := rfl
      have e2 : runCalls (k + 2 + 1) = runCalls (k + 2) + runCalls (k + 1) + 2 := rfl
      have e3 : (k + 2) / 2 = k / 2 + 1 := by omega
      rw [e3, Nat.pow_succ]
      omega

theorem runInput_a {n pos : Nat} (h : pos < n) : (runInput n)[pos]? = some ⟨none, 10⟩ := by
  simp [runInput, List.getElem?_append, h]

theorem runInput_end (n : Nat) : (runInput n)[n]? = some ⟨none, 13⟩ := by
  simp [runInput]

theorem run_choice {cand : Nat → Nat → List (List Nat)} (ha : cand 1 10 = [[2, 1]])
    (hd : cand 1 13 = []) (hA : cand 2 10 = [[10], [10, 10]]) (n : Nat) :
    ∀ k pos, pos + k = n → ∀ s, ∃ t f, (runInput n)[pos]? = some t ∧
      Recovery.Choice 0 runPs cand (some declineAndCount) (runInput n) 1 pos (cand 1 t.tType) true s
        (.failed f (s + runCalls k)) := by
  have hL : IsNonTerminal runPs 1 := ⟨_, List.mem_cons_self, rfl⟩
  have hAN : IsNonTerminal runPs 2 := ⟨⟨2, [10]⟩, by decide, rfl⟩
  have hT : ∀ x, x ≠ 1 → x ≠ 2 → ¬ IsNonTerminal runPs x := by
    rintro x h1 h2 ⟨pr, hpr, rfl⟩
    simp only [runPs, List.mem_cons, List.not_mem_nil, or_false] at hpr
    rcases hpr with rfl | rfl | rfl | rfl
    · exact h1 rfl
    · exact h1 rfl
    · exact h2 rfl
    · exact h2 rfl
  intro k
  induction k using Nat.strongRecOn with
  | ind k ih =>
    intro pos hpos s
    rcases Nat.eq_zero_or_pos k with rfl | hk
    · obtain rfl : pos = n := by omega
      refine ⟨_, .mk [] 1, runInput_end _, ?_⟩
      rw [hd]
      exact .failed 1 pos [] true s s (s + 1) [] (.none _ _ _ _) rfl
    · have ht := runInput_a (n := n) (pos := pos) (by omega)
      obtain ⟨t1, f1, ht1, h1⟩ := ih (k - 1) (by omega) (pos + 1) (by omega) s
      -- the first candidate of `A`
      have hA1 : Recovery.Choice 0 runPs cand (some declineAndCount) (runInput n) 2 pos [[10], [10, 10]] true s
          (.found (.node (.mk [.mk [] ⟨none, 10⟩] ⟨none, 2⟩) (pos + 1) [[10, 10]]) s) :=
        .derived _ _ _ _ _ _ _ (.node _ _ _ _ _ _ _ [.mk [] ⟨none, 10⟩] _
          (.terminal _ _ _ _ ⟨none, 10⟩ _ (hT 10 (by decide) (by decide)) (by decide) ht (.nil _ _ _)))
      have hs1 : Recovery.Seq 0 runPs cand (some declineAndCount) (runInput n) true [1] (pos + 1) s
          (.failed (f1, []) (s + runCalls (k - 1))) := .failed _ _ _ _ _ _ _ _ hL ht1 h1
      have key : ∃ f l, Recovery.Seq 0 runPs cand (some declineAndCount) (runInput n) true [2, 1] pos s
          (.failed (f, l) (s + runCalls k - 1)) := by
        by_cases hk1 : k = 1
        · subst hk1
          have he : (runInput n)[pos + 1]? = some ⟨none, 13⟩ := by
            have := runInput_end n
            rwa [← hpos] at this ⊢
          have hA2 := Recovery.Choice.failed (eps := 0) (ps := runPs) (cand := cand)
            (solver := some declineAndCount) (tokens := runInput n) 2 pos [[10, 10]] true (s + 1) (s + 1)
            (s + 2) _ (.next _ _ _ _ _ _ _ _ _ _
              (.terminal _ _ _ _ ⟨none, 10⟩ _ (hT 10 (by decide) (by decide)) (by decide) ht
                (.mismatch _ 10 [] _ _ (hT 10 (by decide) (by decide)) (by decide) (by
                  intro t h e
                  rw [he] at h
                  cases h
                  cases e)))
              (.none _ _ _ _)) rfl
          rw [← hA] at hA1
          exact ⟨f1, [], .nonTerminal true 2 [1] pos s s ⟨none, 10⟩ _ _ _ _ _ hAN ht hA1 hs1
            (.gaveUp _ _ _ _ _ _ _ _ _ _ hA2)⟩
        · obtain ⟨j, rfl⟩ : ∃ j, k = j + 2 := ⟨k - 2, by omega⟩
          have ht' := runInput_a (n := n) (pos := pos + 1) (by omega)
          have hA2 : ∀ u, Recovery.Choice 0 runPs cand (some declineAndCount) (runInput n) 2 pos [[10, 10]] true u
              (.found (.node (.mk [.mk [] ⟨none, 10⟩, .mk [] ⟨none, 10⟩] ⟨none, 2⟩) (pos + 2) []) u) := fun u =>
            .derived _ _ _ _ _ _ _ (.node _ _ _ _ _ _ _ [.mk [] ⟨none, 10⟩, .mk [] ⟨none, 10⟩] _
              (.terminal _ _ _ _ ⟨none, 10⟩ _ (hT 10 (by decide) (by decide)) (by decide) ht
                (.terminal _ _ _ _ ⟨none, 10⟩ _ (hT 10 (by decide) (by decide)) (by decide) ht' (.nil _ _ _))))
          obtain ⟨t2, f2, ht2, h2⟩ := ih j (by omega) (pos + 2) (by omega) (s + runCalls (j + 1))
          have hs2 : Recovery.Seq 0 runPs cand (some declineAndCount) (runInput n) true [1] (pos + 2)
              (s + runCalls (j + 1)) (.failed (f2, []) (s + runCalls (j + 1) + runCalls j)) :=
            .failed _ _ _ _ _ _ _ _ hL ht2 h2
          have hA3 := Recovery.Choice.failed (eps := 0) (ps := runPs) (cand := cand)
            (solver := some declineAndCount) (tokens := runInput n) 2 pos [] true
            (s + runCalls (j + 1) + runCalls j) (s + runCalls (j + 1) + runCalls j)
            (s + runCalls (j + 1) + runCalls j + 1) _ (.none _ _ _ _) rfl
          refine ⟨f2, [], ?_⟩
          have e : s + runCalls (j + 2) - 1 = s + runCalls (j + 1) + runCalls j + 1 := by
            rw [show runCalls (j + 2) = runCalls (j + 1) + runCalls j + 2 from rfl]
            omega
          rw [e]
          rw [← hA] at hA1
          exact .nonTerminal true 2 [1] pos s s ⟨none, 10⟩ _ _ _ _ _ hAN ht hA1 hs1
            (.again _ _ _ _ _ _ _ _ _ _ _ _ _ _ (hA2 _) hs2 (.gaveUp _ _ _ _ _ _ _ _ _ _ hA3))
      obtain ⟨f, l, key⟩ := key
      have halts := Recovery.Alts.next (eps := 0) (ps := runPs) (cand := cand) 1 pos true [2, 1] [] s _ _ _
        _ key (.none _ _ _ _)
      have hc := Recovery.Choice.failed (eps := 0) (ps := runPs) (cand := cand)
        (solver := some declineAndCount) (tokens := runInput n) 1 pos [[2, 1]] true s _ _ _ halts rfl
      have : 1 ≤ runCalls k := Nat.le_trans Nat.one_le_two_pow (runCalls_ge k).2
      rw [show s + runCalls k - 1 + 1 = s + runCalls k by omega, ← ha] at hc
      exact ⟨_, _, ht, hc⟩

/-- With conflicts even a solver that always declines can be asked exponentially often: with the grammar
`L → A L | b`, `A → a | a a` and `n` symbols `a` in front of an unexpected token, at least `2 ^ (n / 2)`
times. -/
theorem C80_exponential_calls : NotLeftRecursive 0 runPs ∧ ∃ g p,
    Grammar.new (HashOrder.id Nat) 0 1 runPs = .ok g ∧
    Built (HashOrder.id Nat) g (some declineAndCount) p ∧
    ∀ n, ∃ f calls, Parses p (runInput n) 0 (.err f) calls ∧ 2 ^ (n / 2) ≤ calls := by
  refine ⟨notLeftRecursive_of_rank (fun _ => false) (fun x => if x = 1 then 2 else if x = 2 then 1 else 0)
    (by decide), ?_⟩
  obtain ⟨g, p, hg, hp, ha, hd, hA⟩ : ∃ g p, Grammar.new (HashOrder.id Nat) 0 1 runPs = .ok g ∧
      Built (HashOrder.id Nat) g (some declineAndCount) p ∧
      candidates p.transitions 1 10 = [[2, 1]] ∧ candidates p.transitions 1 13 = [] ∧
      candidates p.transitions 2 10 = [[10], [10, 10]] :=
    ⟨_, _, rfl, Parser.built_of_eval_solver (n := 10) rfl, rfl, rfl, rfl⟩
  refine ⟨g, p, hg, hp, fun n => ?_⟩
  obtain ⟨t, f, ht, hc⟩ := run_choice ha hd hA n n 0 (by omega) 0
  obtain ⟨t', ts, hts⟩ : ∃ t ts, runInput n = t :: ts := by
    cases n with
    | zero => exact ⟨_, _, rfl⟩
    | succ n => exact ⟨_, _, rfl⟩
  rw [hts] at ht hc
  simp only [List.getElem?_cons_zero, Option.some.injEq] at ht
  subst ht
  refine ⟨f, 0 + runCalls n, ?_, ?_⟩
  · rw [hts]
    exact ((C38_exact_result _ 0 1 runPs g hg _ p hp t' ts 0).1 _ _).2 ⟨_, hc, rfl⟩
  · have h1 := (runCalls_ge n).2
    omega

end Verif.Props
