import Verif.Proof.Saturate
import Verif.Props.Nested

/-!
# Property C85: a parse that does not come to an end overflows the stack
-/

set_option linter.unusedSectionVars false

namespace Verif.Props

open Verif.Spec Verif.Examples

variable {σ L T : Type} [DecidableEq T]

theorem small_of_built {h : HashOrder T} {eps init : T} {ps : List (Production T)} {g : Grammar T}
    (hg : Grammar.new h eps init ps = .ok g) {solver : Option (Solver σ L T)} {p : Parser σ L T}
    (hp : Built h g solver p) {m : Nat} (hm : ∀ r ∈ ps, r.output.length ≤ m) (x a : T) :
    Parser.Small ps.length m (p.getTokenProductions x a) := by
  obtain ⟨P, -⟩ := Parser.tableParser_of_built hg hp
  exact ⟨P.toParserOf.count x a, fun o ho => hm _ (P.toParserOf.cand x a o ho)⟩

/-- **C85.** For every grammar and any solver whose functions return: let `loop` be at least
`(productions + 2) ^ m`, where no production has more than `m` outputs. Then no `while` loop makes more than
`loop` iterations; the parser does not come to an end exactly if, however large the stack is, it overflows; and
it returns, or panics, exactly if it does so on every stack that is large enough. -/
theorem C85_overflow (h : HashOrder T) (eps init : T) (ps : List (Production T)) (g : Grammar T)
    (hg : Grammar.new h eps init ps = .ok g) (solver : Option (Solver σ L T)) (p : Parser σ L T)
    (hp : Built h g solver p) (hterm : SolverTerminates solver) (m : Nat)
    (hm : ∀ r ∈ ps, r.output.length ≤ m) (loop : Nat) (hloop : (ps.length + 2) ^ m ≤ loop)
    (tokens : List (Token L T)) (s : σ) :
    (∀ e depth, p.parseFromTokensAborting e depth loop tokens s ≠ .fuel) ∧
    (ParseDiverges p tokens s ↔ ∀ e depth, p.parseFromTokensAborting e depth loop tokens s = .panic e) ∧
    (∀ r s', Parses p tokens s r s' ↔ ∃ enough, ∀ e depth, enough ≤ depth →
      p.parseFromTokensAborting e depth loop tokens s = .ok (r, s')) ∧
    (ParsePanics p tokens s ↔ ∃ e' enough, ∀ e depth, enough ≤ depth →
      p.parseFromTokensAborting e depth loop tokens s = .panic e') := by
  have hcand := small_of_built hg hp hm
  have hst : SolverTerminates p.syntaxErrorSolver := by
    rw [(Parser.tableParser_of_built hg hp).2]; exact hterm
  have hab := fun e depth => Parser.parseFromTokensAborting_eq hcand hst hloop hloop e depth tokens s
  -- a result within the bounds is a result
  have hle : ∀ depth, p.parseFromTokensWithin depth loop tokens s ≠ .fuel →
      p.parseFromTokensWithin depth loop tokens s = p.parseFromTokens (loop + depth) tokens s := by
    intro depth hne
    rcases Parser.parseFromTokensWithin_le p tokens depth loop s with h | h
    · exact absurd h hne
    · exact h
  -- a result is a result within the bounds
  have hge : ∀ n depth, n ≤ depth → p.parseFromTokens n tokens s ≠ .fuel →
      p.parseFromTokensWithin depth loop tokens s = p.parseFromTokens n tokens s := by
    intro n depth hd hne
    rw [Parser.parseFromTokensWithin_same hcand hloop (Nat.le_trans hloop (Nat.le_max_left loop n))]
    rcases Parser.parse_le_within p tokens (Nat.le_max_right loop n) hd s with h | h
    · exact absurd h hne
    · exact h.symm
  have hends : ∀ n, p.parseFromTokens n tokens s ≠ .fuel → ∀ e depth, n ≤ depth →
      p.parseFromTokensAborting e depth loop tokens s = p.parseFromTokens n tokens s := by
    intro n hne e depth hd
    have h1 := hge n depth hd hne
    rcases hab e depth with ⟨h2, -⟩ | ⟨-, h2⟩
    · rw [h1] at h2; exact absurd h2 hne
    · exact h2.trans h1
  -- on which stacks it does not overflow
  have hfits : ∀ depth, (∃ e, p.parseFromTokensAborting e depth loop tokens s ≠ .panic e) →
      p.parseFromTokensWithin depth loop tokens s ≠ .fuel := by
    rintro depth ⟨e, he⟩
    rcases hab e depth with ⟨-, h2⟩ | ⟨h1, -⟩
    · exact absurd h2 he
    · exact h1
  have hval : ∀ depth e, p.parseFromTokensWithin depth loop tokens s ≠ .fuel →
      p.parseFromTokensAborting e depth loop tokens s = p.parseFromTokens (loop + depth) tokens s := by
    intro depth e hne
    rcases hab e depth with ⟨h1, -⟩ | ⟨-, h2⟩
    · exact absurd h1 hne
    · exact h2.trans (hle depth hne)
  refine ⟨?_, ⟨?_, ?_⟩, fun r s' => ⟨?_, ?_⟩, ⟨?_, ?_⟩⟩
  · intro e depth
    rcases hab e depth with ⟨-, h2⟩ | ⟨h1, h2⟩
    · rw [h2]; simp
    · rw [h2]; exact h1
  · intro hd e depth
    by_contra hne
    have h1 := hfits depth ⟨e, hne⟩
    exact h1 ((hle depth h1).trans (hd _))
  · intro ha n
    by_contra hne
    have h1 := hends n hne .emptyInput n (Nat.le_refl _)
    have h2 := hends n hne .unwrapNone n (Nat.le_refl _)
    rw [ha] at h1 h2
    rw [← h1] at h2
    simp at h2
  · intro hr
    obtain ⟨n, hn⟩ := Parser.parses_at hr
    exact ⟨n, fun e depth hd => (hends n (by rw [hn]; simp) e depth hd).trans hn⟩
  · rintro ⟨n, hn⟩
    have h1 := hn .emptyInput n (Nat.le_refl _)
    have h2 := hval n .emptyInput (hfits n ⟨.emptyInput, by rw [h1]; simp⟩)
    rw [h1] at h2
    exact Parser.parse_returns h2.symm
  · rintro ⟨n, e', hn⟩
    have hn' : p.parseFromTokens n tokens s = .panic e' := hn n (Nat.le_refl _)
    exact ⟨e', n, fun e depth hd => (hends n (by rw [hn']; simp) e depth hd).trans hn'⟩
  · rintro ⟨e', n, hn⟩
    obtain ⟨e, he⟩ : ∃ e : Panic, e' ≠ e := by
      by_cases h : e' = .emptyInput
      · exact ⟨.unwrapNone, by rw [h]; simp⟩
      · exact ⟨.emptyInput, h⟩
    have h1 := hn e n (Nat.le_refl _)
    have h2 := hval n e (hfits n ⟨e, by rw [h1]; simpa using he⟩)
    rw [h1] at h2
    exact Parser.parse_panics h2.symm

/-- **C85**, without a solver. Whether a parse comes to an end is decided by running it with room for
`productions * tokens + 1` nested calls: it does not come to an end exactly if that stack overflows. -/
theorem C85_decided (h : HashOrder T) (eps init : T) (ps : List (Production T)) (g : Grammar T)
    (hg : Grammar.new h eps init ps = .ok g) (p : Parser σ L T) (hp : Built h g none p) (m : Nat)
    (hm : ∀ r ∈ ps, r.output.length ≤ m) (tokens : List (Token L T)) (s : σ) :
    (ParseDiverges p tokens s ↔
      p.parseFromTokensWithin (ps.length * tokens.length + 1) ((ps.length + 2) ^ m) tokens s = .fuel) ∧
    (ParseDiverges p tokens s ↔ ∀ e, p.parseFromTokensAborting e (ps.length * tokens.length + 1)
      ((ps.length + 2) ^ m) tokens s = .panic e) := by
  have hcand := small_of_built hg hp hm
  have hst : SolverTerminates p.syntaxErrorSolver := by
    rw [(Parser.tableParser_of_built hg hp).2]; intro sv hsv; cases hsv
  have h1 : ParseDiverges p tokens s ↔
      p.parseFromTokensWithin (ps.length * tokens.length + 1) ((ps.length + 2) ^ m) tokens s = .fuel := by
    rw [(C83_call_stack h eps init ps g hg p hp tokens s _ (Nat.le_refl _)).2.2]
    constructor
    · intro hf
      exact hf _
    · intro hf loop
      rcases Nat.le_total ((ps.length + 2) ^ m) loop with hl | hl
      · rw [← Parser.parseFromTokensWithin_same hcand (Nat.le_refl _) hl]
        exact hf
      · rcases Parser.parseFromTokensWithin_mono p tokens hl (ps.length * tokens.length + 1) s with h2 | h2
        · exact h2
        · exact h2.trans hf
  refine ⟨h1, h1.trans ⟨?_, ?_⟩⟩
  · intro hf e
    rcases Parser.parseFromTokensAborting_eq hcand hst (Nat.le_refl _) (Nat.le_refl _) e
      (ps.length * tokens.length + 1) tokens s with ⟨-, h2⟩ | ⟨h2, -⟩
    · exact h2
    · exact absurd hf h2
  · intro hf
    by_contra hne
    have h2 := hf .emptyInput
    have h3 := hf .unwrapNone
    rcases Parser.parseFromTokensAborting_eq hcand hst (Nat.le_refl _) (Nat.le_refl _) .emptyInput
      (ps.length * tokens.length + 1) tokens s with ⟨h, -⟩ | ⟨-, h4⟩
    · exact hne h
    rcases Parser.parseFromTokensAborting_eq hcand hst (Nat.le_refl _) (Nat.le_refl _) .unwrapNone
      (ps.length * tokens.length + 1) tokens s with ⟨h, -⟩ | ⟨-, h5⟩
    · exact hne h
    rw [h2] at h4
    rw [h3, ← h4] at h5
    simp at h5

/-- The left-recursive grammar of C83: `a b c` is accepted on a stack with room for three calls; `a a`
overflows every stack. -/
theorem C85_example : ∃ g p, Grammar.new (HashOrder.id Nat) 0 1 retriedPs = .ok g ∧
    Built (σ := Unit) (L := Unit) (HashOrder.id Nat) g none p ∧
    (∀ r ∈ retriedPs, r.output.length ≤ 2) ∧
    (∃ tree, Parses p [⟨none, 11⟩, ⟨none, 12⟩, ⟨none, 13⟩] () (.ok tree) () ∧
      ∀ e, p.parseFromTokensAborting e 3 (5 ^ 2) [⟨none, 11⟩, ⟨none, 12⟩, ⟨none, 13⟩] () = .ok (.ok tree, ())) ∧
    (∀ e depth, p.parseFromTokensAborting e depth (5 ^ 2) [⟨none, 11⟩, ⟨none, 11⟩] () = .panic e) := by
  obtain ⟨g, p, hg, hp, tree, hr, hw, hf⟩ : ∃ g p,
      Grammar.new (HashOrder.id Nat) 0 1 retriedPs = .ok g ∧
      Built (σ := Unit) (L := Unit) (HashOrder.id Nat) g none p ∧ ∃ tree,
      Parses p [⟨none, 11⟩, ⟨none, 12⟩, ⟨none, 13⟩] () (.ok tree) () ∧
      (∀ e, p.parseFromTokensAborting e 3 (5 ^ 2) [⟨none, 11⟩, ⟨none, 12⟩, ⟨none, 13⟩] () =
        .ok (.ok tree, ())) ∧
      p.parseFromTokensWithin (3 * 2 + 1) ((3 + 2) ^ 2) [⟨none, 11⟩, ⟨none, 11⟩] () = .fuel :=
    ⟨_, _, rfl, Parser.built_of_eval (n := 10) rfl, _, Parser.parse_returns (n := 20) rfl, fun _ => rfl, rfl⟩
  have hd : ParseDiverges p [⟨none, 11⟩, ⟨none, 11⟩] () := by
    exact (C85_decided _ 0 1 retriedPs g hg p hp 2 (by decide) _ ()).1.2 hf
  refine ⟨g, p, hg, hp, by decide, ⟨tree, hr, hw⟩, ?_⟩
  · exact (C85_overflow _ 0 1 retriedPs g hg none p hp (by intro sv h; cases h) 2 (by decide) _
      (Nat.le_refl _) _ ()).2.1.1 hd

end Verif.Props
