import Verif.Proof.NestedDepth
import Verif.Props.Choice

/-!
# Property C83: exactly when parsing does not come to an end
-/

set_option linter.unusedSectionVars false

namespace Verif.Props

open Verif.Spec Verif.Examples

variable {σ L T : Type} [DecidableEq T]

theorem getTokenProductions_candidates (p : Parser σ L T) :
    p.getTokenProductions = candidates p.transitions :=
  funext fun x => funext fun a => Parser.getTokenProductions_eq p x a

/-- **C83.** Without a solver, for every grammar and every token sequence: `parse_from_tokens` does not
return exactly if, in the course of the search for the initial symbol at the first token, the search of the
output of some production at some position leads to a search of the same output at the same position. -/
theorem C83_diverges_iff (h : HashOrder T) (eps init : T) (ps : List (Production T))
    (g : Grammar T) (hg : Grammar.new h eps init ps = .ok g) (p : Parser σ L T)
    (hp : Built h g none p) (tokens : List (Token L T)) (s : σ) :
    ParseDiverges p tokens s ↔ ∃ o q,
      LeadsTo eps ps (candidates p.transitions) tokens [init] 0 o q ∧
      LeadsTo eps ps (candidates p.transitions) tokens o q o q := by
  obtain ⟨P, hs⟩ := Parser.tableParser_of_built hg hp
  rw [← getTokenProductions_candidates]
  exact Parser.diverges_iff P.toParserOf hs tokens s

/-- The same for a parser made from any FIRST and FOLLOW sets. -/
theorem C83_diverges_iff_any_first_follow (h : HashOrder T) (eps init : T) (ps : List (Production T))
    (g : Grammar T) (hg : Grammar.new h eps init ps = .ok g) (ff : FirstFollow T) (p : Parser σ L T)
    (hp : Parser.fromGrammarAndFirstFollowSymbols h g ff = .ok p) (tokens : List (Token L T)) (s : σ) :
    ParseDiverges p tokens s ↔ ∃ o q,
      LeadsTo eps ps (candidates p.transitions) tokens [init] 0 o q ∧
      LeadsTo eps ps (candidates p.transitions) tokens o q o q := by
  rw [← getTokenProductions_candidates]
  exact Parser.diverges_iff (Parser.parserOf_of_from hg hp) (Parser.from_eq_ok hp).2.1 tokens s

/-- **C83**, the call stack. For every grammar, left-recursive or not: a parse without a solver that returns
or panics does so within at most `productions * tokens + 1` nested calls of the recursive function. So with
that many calls on the stack it is certain that the parse does not come to an end. -/
theorem C83_call_stack (h : HashOrder T) (eps init : T) (ps : List (Production T))
    (g : Grammar T) (hg : Grammar.new h eps init ps = .ok g) (p : Parser σ L T)
    (hp : Built h g none p) (tokens : List (Token L T)) (s : σ) (depth : Nat)
    (hdepth : ps.length * tokens.length + 1 ≤ depth) :
    (∀ r s', Parses p tokens s r s' ↔ ∃ loop, p.parseFromTokensWithin depth loop tokens s = .ok (r, s')) ∧
    (ParsePanics p tokens s ↔ ∃ loop e, p.parseFromTokensWithin depth loop tokens s = .panic e) ∧
    (ParseDiverges p tokens s ↔ ∀ loop, p.parseFromTokensWithin depth loop tokens s = .fuel) := by
  obtain ⟨P, hs⟩ := Parser.tableParser_of_built hg hp
  -- a result within the bounds is a result
  have hle : ∀ loop, p.parseFromTokensWithin depth loop tokens s ≠ .fuel →
      p.parseFromTokensWithin depth loop tokens s = p.parseFromTokens (loop + depth) tokens s := by
    intro loop hne
    rcases Parser.parseFromTokensWithin_le p tokens depth loop s with h | h
    · exact absurd h hne
    · exact h
  -- a parse that ends does so within the bounds
  have hends : ∀ n, p.parseFromTokens n tokens s ≠ .fuel → ∃ loop,
      p.parseFromTokensWithin depth loop tokens s = p.parseFromTokens n tokens s := by
    intro n hn
    have hw : ∃ N, ∀ k, N ≤ k → p.parseFromTokensWithin depth k tokens s ≠ .fuel := by
      cases tokens with
      | nil => exact ⟨0, fun k _ => by simp [Parser.parseFromTokensWithin, M.panic]⟩
      | cons t ts =>
        obtain ⟨r, _, hc⟩ := Parser.choice_of_parse P.toParserOf hs t ts n s hn
        exact Parser.parseWithin_of_choice P.toParserOf hs hc hdepth s
    obtain ⟨N, hN⟩ := hw
    refine ⟨max N n, ?_⟩
    have h1 := hN (max N n) (by omega)
    rw [hle _ h1]
    exact Parser.parse_mono (by omega) rfl hn
  refine ⟨fun r s' => ⟨fun hr => ?_, ?_⟩, ⟨?_, ?_⟩, ⟨?_, ?_⟩⟩
  · obtain ⟨n, hn⟩ := Parser.parses_at hr
    obtain ⟨loop, hl⟩ := hends n (by rw [hn]; simp)
    exact ⟨loop, hl.trans hn⟩
  · rintro ⟨loop, hl⟩
    have := hle loop (by rw [hl]; simp)
    rw [hl] at this
    exact Parser.parse_returns this.symm
  · rintro ⟨n, e, hn⟩
    have hn' : p.parseFromTokens n tokens s = .panic e := hn n (Nat.le_refl _)
    obtain ⟨loop, hl⟩ := hends n (by rw [hn']; simp)
    exact ⟨loop, e, hl.trans hn'⟩
  · rintro ⟨loop, e, hl⟩
    have := hle loop (by rw [hl]; simp)
    rw [hl] at this
    exact Parser.parse_panics this.symm
  · intro hd loop
    by_contra hne
    exact hne ((hle loop hne).trans (hd (loop + depth)))
  · intro hf n
    by_contra hne
    obtain ⟨loop, hl⟩ := hends n hne
    rw [hf] at hl
    exact hne hl.symm

/-- A left-recursive grammar: `S → X c`, `X → a | X b`, with `S = 1, X = 2, a = 11, b = 12, c = 13`. -/
def retriedPs : List (Production Nat) := [⟨1, [2, 13]⟩, ⟨2, [11]⟩, ⟨2, [2, 12]⟩]

/-- With this left-recursive grammar `a b c` is accepted (also within the bound on the call stack); `a a`
leads from `X b` at the first token to `X b` at the first token, and parsing does not come to an end. -/
theorem C83_left_recursive_example : ∃ g p, Grammar.new (HashOrder.id Nat) 0 1 retriedPs = .ok g ∧
    Built (σ := Unit) (L := Unit) (HashOrder.id Nat) g none p ∧
    (∃ tree, Parses p [⟨none, 11⟩, ⟨none, 12⟩, ⟨none, 13⟩] () (.ok tree) () ∧
      p.parseFromTokensWithin (3 * 3 + 1) 10 [⟨none, 11⟩, ⟨none, 12⟩, ⟨none, 13⟩] () = .ok (.ok tree, ())) ∧
    LeadsTo (L := Unit) 0 retriedPs (candidates p.transitions) [⟨none, 11⟩, ⟨none, 11⟩] [1] 0 [2, 12] 0 ∧
    LeadsTo (L := Unit) 0 retriedPs (candidates p.transitions) [⟨none, 11⟩, ⟨none, 11⟩] [2, 12] 0 [2, 12] 0 ∧
    ParseDiverges p [⟨none, 11⟩, ⟨none, 11⟩] () := by
  obtain ⟨g, p, hg, hp, tree, hr, hw, h1, h2⟩ : ∃ g p,
      Grammar.new (HashOrder.id Nat) 0 1 retriedPs = .ok g ∧
      Built (σ := Unit) (L := Unit) (HashOrder.id Nat) g none p ∧ ∃ tree,
      Parses p [⟨none, 11⟩, ⟨none, 12⟩, ⟨none, 13⟩] () (.ok tree) () ∧
      p.parseFromTokensWithin (3 * 3 + 1) 10 [⟨none, 11⟩, ⟨none, 12⟩, ⟨none, 13⟩] () = .ok (.ok tree, ()) ∧
      candidates p.transitions 1 11 = [[2, 13]] ∧ candidates p.transitions 2 11 = [[11], [2, 12]] :=
    ⟨_, _, rfl, Parser.built_of_eval (n := 10) rfl, _, Parser.parse_returns (n := 20) rfl, rfl, rfl, rfl⟩
  have nt1 : IsNonTerminal retriedPs 1 := ⟨⟨1, [2, 13]⟩, by decide, rfl⟩
  have nt2 : IsNonTerminal retriedPs 2 := ⟨⟨2, [11]⟩, by decide, rfl⟩
  have nt11 : ¬ IsNonTerminal retriedPs 11 := by unfold IsNonTerminal; decide
  have nt12 : ¬ IsNonTerminal retriedPs 12 := by unfold IsNonTerminal; decide
  have nt13 : ¬ IsNonTerminal retriedPs 13 := by unfold IsNonTerminal; decide
  have ha : Seq (L := Unit) 0 retriedPs (candidates p.transitions) [⟨none, 11⟩, ⟨none, 11⟩] [11] 0
      (.found ([.mk [] ⟨none, 11⟩], 1)) :=
    .terminal [] 0 ⟨none, 11⟩ _ nt11 (by decide) rfl (.nil 1)
  have hb : ∀ x, ¬ IsNonTerminal retriedPs x → x ≠ 0 → x ≠ 11 → ∀ o ∈ [[11]],
      PassedOver (L := Unit) 0 retriedPs (candidates p.transitions) [⟨none, 11⟩, ⟨none, 11⟩] [x] 0 o := by
    intro x hx h0 hne o ho
    rw [List.mem_singleton] at ho
    subst ho
    refine .inr ⟨_, _, ha, .mismatch _ _ _ hx h0 ?_⟩
    intro t ht
    simp only [List.getElem?_cons_succ, List.getElem?_cons_zero, Option.some.injEq] at ht
    rw [← ht]
    exact hne.symm
  have s1 : LeadsTo (L := Unit) 0 retriedPs (candidates p.transitions) [⟨none, 11⟩, ⟨none, 11⟩] [1] 0
      [2, 12] 0 :=
    .step _ _ [2, 13] 0 _ _ (.tries _ _ _ _ (.candidate 1 [] 0 ⟨none, 11⟩ [] [2, 13] [] nt1 rfl h1 (by simp)))
      (.candidate 2 [13] 0 ⟨none, 11⟩ [[11]] [2, 12] [] nt2 rfl h2 (hb 13 nt13 (by decide) (by decide)))
  have s2 : LeadsTo (L := Unit) 0 retriedPs (candidates p.transitions) [⟨none, 11⟩, ⟨none, 11⟩] [2, 12] 0
      [2, 12] 0 :=
    .tries _ _ _ _ (.candidate 2 [12] 0 ⟨none, 11⟩ [[11]] [2, 12] [] nt2 rfl h2
      (hb 12 nt12 (by decide) (by decide)))
  exact ⟨g, p, hg, hp, ⟨tree, hr, hw⟩, s1, s2,
    (C83_diverges_iff _ 0 1 retriedPs g hg p hp _ ()).2 ⟨_, _, s1, s2⟩⟩

end Verif.Props
