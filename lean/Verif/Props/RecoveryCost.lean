import Verif.Props.Recovery
import Verif.Props.ErrorsOnly
import Verif.Props.Calls

/-!
# The cost of recovery (C56)
-/

set_option linter.unusedSectionVars false

namespace Verif.Props

open Verif.Spec Verif.Examples

/-- `S → a S S b | c`, with `S = 1, a = 10, b = 11, c = 12`. -/
def nestPs : List (Production Nat) := [⟨1, [10, 1, 1, 11]⟩, ⟨1, [12]⟩]

/-- A solver that fixes every failure by skipping one token, and counts its calls. -/
def skipAndCount : Solver Nat Unit Nat where
  fixFailedProduction _ pos _ := fun n => .ok (some ⟨pos + 1, .mk []⟩, n + 1)
  fixFailedProductions _ pos _ := fun n => .ok (some ⟨pos + 1, .mk []⟩, n + 1)

/-- `n` symbols `a`, then two tokens that are not in the grammar. -/
def nestInput (n : Nat) : List (Token Unit Nat) :=
  List.replicate n ⟨none, 10⟩ ++ [⟨none, 13⟩, ⟨none, 13⟩]

/-- The number of solver calls for `S` with `k` tokens to come behind the current one. -/
def nestCalls : Nat → Nat
  | 0 => 1
  | 1 => 1
  | k + 2 => nestCalls (k + 1) + nestCalls k + 1

theorem nestCalls_ge : ∀ k, nestCalls k ≤ nestCalls (k + 1) ∧ 2 ^ (k / 2) ≤ nestCalls k := by
  intro k
  induction k using Nat.strongRecOn with
  | ind k ih =>
    match k, ih with
    | 0, _ => exact ⟨by decide, by decide⟩
    | 1, _ => exact ⟨by decide, by decide⟩
    | k + 2, ih =>
      obtain ⟨h1, h2⟩ := ih k (by omega)
      obtain ⟨h3, h4⟩ := ih (k + 1) (by omega)
      have e1 : nestCalls (k + 2) = nestCalls (k + 1) + nestCalls k + 1 := rfl
      have e2 : nestCalls (k + 2 + 1) = nestCalls (k + 2) + nestCalls (k + 1) + 1 := rfl
      have e3 : (k + 2) / 2 = k / 2 + 1 := by omega
      rw [e3, Nat.pow_succ]
      omega

theorem nestInput_a {n pos : Nat} (h : pos < n) : (nestInput n)[pos]? = some ⟨none, 10⟩ := by
  simp [nestInput, List.getElem?_append, h]

theorem nestInput_end {n pos : Nat} (h1 : n ≤ pos) (h2 : pos ≤ n + 1) :
    (nestInput n)[pos]? = some ⟨none, 13⟩ := by
  rcases (by omega : pos = n ∨ pos = n + 1) with rfl | rfl
  · simp [nestInput]
  · simp [nestInput]


theorem nest_choice {cand : Nat → Nat → List (List Nat)} (ha : cand 1 10 = [[10, 1, 1, 11]])
    (hd : cand 1 13 = []) (n : Nat) : ∀ k pos, pos + k = n + 1 → ∀ s, ∃ t fs,
      (nestInput n)[pos]? = some t ∧
      Recovery.Choice 0 nestPs cand (some skipAndCount) (nestInput n) 1 pos (cand 1 t.tType) true s
        (.found (.fixed fs (pos + 1)) (s + nestCalls k)) := by
  intro k
  induction k using Nat.strongRecOn with
  | ind k ih =>
    intro pos hpos s
    have hS : IsNonTerminal nestPs 1 := ⟨_, List.mem_cons_self, rfl⟩
    have hT : ∀ x, x ≠ 1 → ¬ IsNonTerminal nestPs x := by
      rintro x hx ⟨pr, hpr, rfl⟩
      simp only [nestPs, List.mem_cons, List.not_mem_nil, or_false] at hpr
      rcases hpr with rfl | rfl <;> exact hx rfl
    by_cases hk : k ≤ 1
    · have ht := nestInput_end (n := n) (pos := pos) (by omega) (by omega)
      have hc : nestCalls k = 1 := by rcases (by omega : k = 0 ∨ k = 1) with rfl | rfl <;> rfl
      refine ⟨_, .mk (.mk []) 1, ht, ?_⟩
      rw [hd, hc]
      exact .fixed 1 pos [] true s s (s + 1) [] ⟨pos + 1, .mk []⟩ (.none _ _ _ _) rfl
    · obtain ⟨j, rfl⟩ : ∃ j, k = j + 2 := ⟨k - 2, by omega⟩
      have ht := nestInput_a (n := n) (pos := pos) (by omega)
      obtain ⟨t1, fs1, ht1, h1⟩ := ih (j + 1) (by omega) (pos + 1) (by omega) s
      obtain ⟨t2, fs2, ht2, h2⟩ := ih j (by omega) (pos + 2) (by omega) (s + nestCalls (j + 1))
      refine ⟨_, .mk (.mk []) 1, ht, ?_⟩
      rw [ha]
      have hm : ∀ u : Nat, Recovery.Seq 0 nestPs cand (some skipAndCount) (nestInput n) true [11] (pos + 3) u
          (.failed (.mk [] 11, []) u) := by
        intro u
        refine .mismatch _ _ _ _ _ (hT 11 (by decide)) (by decide) ?_
        intro t ht e
        rcases Nat.lt_or_ge (pos + 3) n with h | h
        · rw [nestInput_a h] at ht
          cases ht
          cases e
        · rcases Nat.lt_or_ge (n + 1) (pos + 3) with h' | h'
          · rw [List.getElem?_eq_none (by simp [nestInput]; omega)] at ht
            cases ht
          · rw [nestInput_end h h'] at ht
            cases ht
            cases e
      have hseq := Recovery.Seq.terminal (eps := 0) (ps := nestPs) (cand := cand) (solver := some skipAndCount)
        (tokens := nestInput n) true [1, 1, 11] pos s ⟨none, 10⟩ _ (hT 10 (by decide)) (by decide) ht
        (.fixed true 1 [1, 11] (pos + 1) s _ t1 fs1 _ _ hS ht1 h1
          (.fixed true 1 [11] (pos + 2) _ _ t2 fs2 _ _ hS ht2 h2 (hm _)))
      have halts := Recovery.Alts.next (eps := 0) (ps := nestPs) (cand := cand) 1 pos true [10, 1, 1, 11] [] s _ _ _
        _ hseq (.none _ _ _ _)
      have := Recovery.Choice.fixed (eps := 0) (ps := nestPs) (cand := cand) (solver := some skipAndCount)
        (tokens := nestInput n) 1 pos [[10, 1, 1, 11]] true s _ _ _ ⟨pos + 1, .mk []⟩ halts rfl
      have e : s + nestCalls (j + 2) = s + nestCalls (j + 1) + nestCalls j + 1 := by
        rw [show nestCalls (j + 2) = nestCalls (j + 1) + nestCalls j + 1 from rfl]
        omega
      rw [e]
      exact this

/-- Recovery can be exponential even where parsing is linear: the grammar `S → a S S b | c` has a
conflict-free table and no left recursion; with a solver that always skips one token the parse of
`a … a x x`, with `n` symbols `a` in front of two unexpected tokens, returns `Fix` after at least
`2 ^ (n / 2)` solver calls. -/
theorem C56_exponential_recovery : NotLeftRecursive 0 nestPs ∧ ∃ g p,
    Grammar.new (HashOrder.id Nat) 0 1 nestPs = .ok g ∧
    Built (HashOrder.id Nat) g (some skipAndCount) p ∧ ConflictFree p.transitions ∧
    ∀ n, ∃ fs calls, Parses p (nestInput n) 0 (.fix fs) calls ∧ 2 ^ (n / 2) ≤ calls := by
  refine ⟨notLeftRecursive_of_rank (fun _ => false) (fun x => if x = 1 then 1 else 0) (by decide), ?_⟩
  obtain ⟨g, p, hg, hp, hall, ha, hd⟩ : ∃ g p, Grammar.new (HashOrder.id Nat) 0 1 nestPs = .ok g ∧
      Built (HashOrder.id Nat) g (some skipAndCount) p ∧
      (∀ x ∈ nestPs.map (·.input), ∀ a ∈ nestPs.flatMap (·.output),
        ((p.transitions.getProductions x a).getD []).length ≤ 1) ∧
      candidates p.transitions 1 10 = [[10, 1, 1, 11]] ∧ candidates p.transitions 1 13 = [] :=
    ⟨_, _, rfl, Parser.built_of_eval_solver (n := 10) rfl, by decide, rfl, rfl⟩
  refine ⟨g, p, hg, hp, conflictFree_of_check hg hp hall, fun n => ?_⟩
  obtain ⟨t, fs, ht, hc⟩ := nest_choice ha hd n (n + 1) 0 (by omega) 0
  obtain ⟨t', ts, hts⟩ : ∃ t ts, nestInput n = t :: ts := by
    cases n with
    | zero => exact ⟨_, _, rfl⟩
    | succ n => exact ⟨_, _, rfl⟩
  rw [hts] at ht hc
  simp only [List.getElem?_cons_zero, Option.some.injEq] at ht
  subst ht
  refine ⟨fs, 0 + nestCalls (n + 1), ?_, ?_⟩
  · rw [hts]
    exact ((C38_exact_result _ 0 1 nestPs g hg _ p hp t' ts 0).1 _ _).2 ⟨_, hc, rfl⟩
  · have h1 := (nestCalls_ge (n + 1)).2
    have h2 : 2 ^ (n / 2) ≤ 2 ^ ((n + 1) / 2) := Nat.pow_le_pow_right (by omega) (by omega)
    omega

/-- The hypotheses of `C39_never_declining` are met. -/
example : (∀ tokens pos fp s s', skipAndCount.fixFailedProduction tokens pos fp s ≠ .ok (none, s')) ∧
    (∀ tokens pos fps s s', skipAndCount.fixFailedProductions tokens pos fps s ≠ .ok (none, s')) := by
  constructor <;> intro _ _ _ _ _ h <;> cases h

end Verif.Props
