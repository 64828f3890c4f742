import Verif.Proof.Append
import Verif.Proof.Guard
import Verif.Spec.Unmatched
import Verif.Props.Supplied
import Verif.Props.Recovery
import Verif.Props.Local
import Verif.Props.Termination

/-!
# Properties C72, C17, C18: tokens that no terminal matches
-/

set_option linter.unusedSectionVars false

namespace Verif.Props

open Verif.Spec Verif.Examples

variable {σ L T : Type} [DecidableEq T]

theorem Unmatched.ne {eps : T} {ps : List (Production T)} {a : T} (h : Unmatched eps ps a) :
    ∀ p ∈ ps, ∀ x ∈ p.output, ¬ IsNonTerminal ps x → x ≠ eps → a ≠ x := by
  rintro p hp x hx hnt hne rfl
  rcases h with h | h | h
  · exact hnt h
  · exact hne h
  · exact h p hp hx

/-- **C72.** A parser without a solver does not panic on an input that contains a token no terminal
matches, whatever the grammar. -/
theorem C72_no_panic (h : HashOrder T) (eps init : T) (ps : List (Production T))
    (g : Grammar T) (hg : Grammar.new h eps init ps = .ok g) (p : Parser σ L T) (hp : BuiltAny h g p)
    (tokens : List (Token L T)) (t : Token L T) (ht : t ∈ tokens) (hu : Unmatched eps ps t.tType)
    (s : σ) : ¬ ParsePanics p tokens s := by
  obtain ⟨P, hs⟩ := hp.parserOf hg
  intro hpan
  obtain ⟨k, hk⟩ := List.getElem?_of_mem ht
  cases tokens with
  | nil => simp at ht
  | cons t' ts =>
    have := ((Parser.Recovery.parse_iff_choice P t' ts s).2.1).1 hpan
    rw [hs] at this
    refine Parser.Recovery.choice_guarded P.cand hk (Unmatched.ne hu) ?_ this
      (fun o ho => P.cand _ _ _ ho) (Nat.zero_le _)
    intro pos _ sg fps s
    simp [Recovery.answer]

/-- **C72**, with a solver: neither does a parser whose solver does not panic and does not skip the last
token, if no terminal matches that token. -/
theorem C72_no_panic_with_solver (h : HashOrder T) (eps init : T) (ps : List (Production T))
    (g : Grammar T) (hg : Grammar.new h eps init ps = .ok g) (sv : Solver σ L T)
    (p : Parser σ L T) (hp : Built h g (some sv) p) (w : List (Token L T)) (t : Token L T)
    (hu : Unmatched eps ps t.tType)
    (h1 : ∀ pos fp s, pos ≤ w.length →
      (∀ c, sv.fixFailedProduction (w ++ [t]) pos fp s ≠ .panic c) ∧
      ∀ r s', sv.fixFailedProduction (w ++ [t]) pos fp s = .ok (some r, s') →
        r.finalTokenPosition ≤ w.length)
    (h2 : ∀ pos fps s, pos ≤ w.length →
      (∀ c, sv.fixFailedProductions (w ++ [t]) pos fps s ≠ .panic c) ∧
      ∀ r s', sv.fixFailedProductions (w ++ [t]) pos fps s = .ok (some r, s') →
        r.finalTokenPosition ≤ w.length)
    (s : σ) : ¬ ParsePanics p (w ++ [t]) s := by
  obtain ⟨P, hs⟩ := Parser.tableParser_of_built hg hp
  intro hpan
  obtain ⟨t', ts, e⟩ : ∃ t' ts, w ++ [t] = t' :: ts := by
    cases w with
    | nil => exact ⟨_, _, rfl⟩
    | cons a w => exact ⟨_, _, rfl⟩
  have hk : (t' :: ts)[w.length]? = some t := by rw [← e]; simp
  have htame : Parser.Recovery.TameTo (some sv) (t' :: ts) w.length := by
    rw [← e]
    intro pos hpos sg fps s
    have key : ∀ o : Out (Option (FixResult L T) × σ),
        ((∀ c, o ≠ .panic c) ∧ ∀ r s', o = .ok (some r, s') → r.finalTokenPosition ≤ w.length) →
        match o with
        | .ok (some r, _) => r.finalTokenPosition ≤ w.length
        | .ok (none, _) => True
        | .panic _ => False
        | .fuel => True := by
      intro o ho
      match o, ho with
      | .ok (some r, s'), ho => exact ho.2 _ _ rfl
      | .ok (none, _), _ => trivial
      | .panic c, ho => exact ho.1 c rfl
      | .fuel, _ => trivial
    apply key
    match sg, fps with
    | false, _ => exact ⟨fun c h => by simp [Recovery.answer] at h, fun r s' h => by
        simp [Recovery.answer] at h⟩
    | true, [fp] => exact h1 pos fp s hpos
    | true, [] => exact h2 pos [] s hpos
    | true, a :: b :: l => exact h2 pos (a :: b :: l) s hpos
  rw [e] at hpan
  have := ((Parser.Recovery.parse_iff_choice P.toParserOf t' ts s).2.1).1 hpan
  rw [hs] at this
  exact Parser.Recovery.choice_guarded P.cand hk (Unmatched.ne hu) htame this
    (fun o ho => P.cand _ _ _ ho) (Nat.zero_le _)

/-- **C72**, without left recursion: such an input gives `Ok` or `Err`, for every grammar without left
recursion, end marker or not. -/
theorem C72_total (h : HashOrder T) (eps init : T) (ps : List (Production T))
    (g : Grammar T) (hg : Grammar.new h eps init ps = .ok g) (p : Parser σ L T) (hp : BuiltAny h g p)
    (hnlr : NotLeftRecursive eps ps) (tokens : List (Token L T)) (t : Token L T) (ht : t ∈ tokens)
    (hu : Unmatched eps ps t.tType) (s : σ) :
    (∃ tree, Parses p tokens s (.ok tree) s) ∨ ∃ f, Parses p tokens s (.err f) s := by
  obtain ⟨P, hs⟩ := hp.parserOf hg
  obtain ⟨n, hn⟩ := Parser.parse_ends (tokens := tokens) P hnlr
    (by rw [hs]; rintro pos r ⟨_, sv, _, _, h, _⟩; simp at h) (by rw [hs]; intro sv h; simp at h) s
  cases e : p.parseFromTokens n tokens s with
  | ok r =>
    obtain ⟨r, s'⟩ := r
    have hr : Parses p tokens s r s' := Parser.parse_returns e
    obtain rfl := state_of_none P hs hr
    cases r with
    | ok tree => exact .inl ⟨_, hr⟩
    | err f => exact .inr ⟨_, hr⟩
    | fix f => exact absurd hr (C27_no_fix_without_solver h eps init ps g hg p hp tokens s' s' f)
  | panic q => exact absurd (Parser.parse_panics e) (C72_no_panic h eps init ps g hg p hp tokens t ht hu s)
  | fuel => exact absurd e hn

/-- **C72**, appending: what a parser without a solver does on an input on which it does not panic, it does
on every input that goes on with a token no terminal matches: the same tree, the same report, or it does not
return. -/
theorem C72_append (h : HashOrder T) (eps init : T) (ps : List (Production T))
    (g : Grammar T) (hg : Grammar.new h eps init ps = .ok g) (p : Parser σ L T) (hp : BuiltAny h g p)
    (tokens rest : List (Token L T)) (t : Token L T) (hu : Unmatched eps ps t.tType) (s : σ)
    (hnp : ¬ ParsePanics p tokens s) :
    (∀ r s', Parses p (tokens ++ t :: rest) s r s' ↔ Parses p tokens s r s') ∧
    (ParseDiverges p (tokens ++ t :: rest) s ↔ ParseDiverges p tokens s) := by
  obtain ⟨P, hs⟩ := hp.parserOf hg
  cases tokens with
  | nil => exact absurd (C18_empty_input_panics p s) hnp
  | cons t' ts =>
    have hj : Parser.Recovery.Junk eps ps (t' :: ts) (t' :: (ts ++ t :: rest)) (ts.length + 1) := by
      refine ⟨fun i hi => ?_, by simp, ?_⟩
      · rw [← List.cons_append, List.getElem?_append_left (by simpa using hi)]
      · intro t2 ht2
        simp only [List.getElem?_cons_succ] at ht2
        rw [List.getElem?_append_right (Nat.le_refl _)] at ht2
        simp only [Nat.sub_self, List.getElem?_cons_zero, Option.some.injEq] at ht2
        subst ht2
        exact Unmatched.ne hu
    obtain ⟨a1, a2, a3⟩ := Parser.Recovery.parse_iff_choice P t' ts s
    obtain ⟨b1, b2, b3⟩ := Parser.Recovery.parse_iff_choice P t' (ts ++ t :: rest) s
    rw [hs] at a1 a2 a3 b1 b2 b3
    rw [a2] at hnp
    have hiff : ∀ o, Spec.Recovery.Choice eps ps p.getTokenProductions none (t' :: ts) init 0
          (p.getTokenProductions init t'.tType) true s o ↔
        Spec.Recovery.Choice eps ps p.getTokenProductions none (t' :: (ts ++ t :: rest)) init 0
          (p.getTokenProductions init t'.tType) true s o := by
      intro o
      constructor
      · intro ho
        exact (Parser.Recovery.choice_append P.cand hj ho (Nat.zero_le _) (fun o ho => P.cand _ _ _ ho)
          (by rintro rfl; exact hnp ho)).1
      · intro ho
        rcases Parser.Recovery.choice_remove P.cand hj ho (Nat.zero_le _) (fun o ho => P.cand _ _ _ ho) with
          ⟨h1, _⟩ | h1
        · exact h1
        · exact absurd h1 hnp
    rw [List.cons_append]
    refine ⟨fun r s' => ?_, ?_⟩
    · rw [a1, b1]; simp only [hiff]
    · rw [a3, b3]; simp only [hiff]

theorem parses_not_panics {p : Parser σ L T} {tokens : List (Token L T)} {s s' : σ} {r : ParseResult L T}
    (hr : Parses p tokens s r s') : ¬ ParsePanics p tokens s := by
  obtain ⟨N, hN⟩ := hr
  rintro ⟨M, c, hM⟩
  have h1 := hN (max N M) (by omega)
  have h2 := hM (max N M) (by omega)
  simp only at h1 h2
  rw [h1] at h2
  cases h2

/-- **C17**, exactly when it holds for a parser without a solver and all inputs: only if the parser never
returns `Ok`. So input that may have tokens left over behind a derivation has to be guarded by an end marker
(`C17_whole_input_partial`). -/
theorem C17_holds_iff_nothing_accepted (h : HashOrder T) (eps init : T) (ps : List (Production T))
    (g : Grammar T) (hg : Grammar.new h eps init ps = .ok g) (p : Parser σ L T) (hp : BuiltAny h g p) :
    (∀ tokens s s' tree, Parses p tokens s (.ok tree) s' → leaves eps tree.root = tokens) ↔
      ∀ tokens s s' tree, ¬ Parses p tokens s (.ok tree) s' := by
  constructor
  · intro H tokens s s' tree hr
    obtain ⟨P, _⟩ := hp.parserOf hg
    obtain ⟨_, _, hnt, _⟩ := ok_tree P hr
    have h1 := ((C72_append h eps init ps g hg p hp tokens [] ⟨none, init⟩ (.inl hnt) s
      (fun hpan => parses_not_panics hr hpan)).1 _ _).2 hr
    have h2 := H _ _ _ _ h1
    rw [H _ _ _ _ hr] at h2
    simp at h2
  · intro H tokens s s' tree hr
    exact absurd hr (H _ _ _ _)

/-- **C18**: without a solver a non-empty input can only make the parser panic if all of its tokens are
terminals of the grammar. -/
theorem C18_panic_only_terminals (h : HashOrder T) (eps init : T) (ps : List (Production T))
    (g : Grammar T) (hg : Grammar.new h eps init ps = .ok g) (p : Parser σ L T) (hp : BuiltAny h g p)
    (tokens : List (Token L T)) (s : σ) (hpan : ParsePanics p tokens s) :
    ∀ t ∈ tokens, IsTerminal ps t.tType ∧ t.tType ≠ eps := by
  intro t ht
  by_contra hc
  refine C72_no_panic h eps init ps g hg p hp tokens t ht ?_ s hpan
  unfold Unmatched
  by_contra hu
  simp only [not_or, not_forall, not_not] at hu
  obtain ⟨h1, h2, q, hq, hm⟩ := hu
  exact hc ⟨⟨⟨q, hq, hm⟩, h1⟩, h2⟩

/-! ## The hypotheses can be met -/

/-- A solver that fixes every failure without skipping a token. -/
def stayer : Solver Unit Unit Nat where
  fixFailedProduction _ pos _ := fun s => .ok (some ⟨pos, .mk []⟩, s)
  fixFailedProductions _ pos _ := fun s => .ok (some ⟨pos, .mk []⟩, s)

/-- `S → a B`, `B → b` (`runOutPs`) has no end marker. On `a` the parser panics; on `a` and a token of an
unknown type it returns `Err` without a solver and `Fix` with one, and on `a b` and that token `Ok`. -/
theorem C72_unknown_token_guards : ∃ g p q f r t, Grammar.new (HashOrder.id Nat) 0 1 runOutPs = .ok g ∧
    BuiltAny (HashOrder.id Nat) g (p : Parser Unit Unit Nat) ∧
    Built (HashOrder.id Nat) g (some stayer) (q : Parser Unit Unit Nat) ∧
    NotLeftRecursive 0 runOutPs ∧ Unmatched 0 runOutPs 99 ∧
    ParsePanics p [⟨none, 10⟩] () ∧ ParsePanics q [⟨none, 10⟩] () ∧
    Parses p [⟨none, 10⟩, ⟨none, 99⟩] () (.err f) () ∧
    Parses q [⟨none, 10⟩, ⟨none, 99⟩] () (.fix r) () ∧
    (¬ ParsePanics p [⟨none, 10⟩, ⟨none, 11⟩] ()) ∧
    Parses p [⟨none, 10⟩, ⟨none, 11⟩] () (.ok t) () ∧
    Parses p [⟨none, 10⟩, ⟨none, 11⟩, ⟨none, 99⟩] () (.ok t) () := by
  obtain ⟨g, p, q, f, r, t, hg, hp, hq, h1, h2, h3, h4, h5, h6⟩ : ∃ g p q f r t,
      Grammar.new (HashOrder.id Nat) 0 1 runOutPs = .ok g ∧
      Built (HashOrder.id Nat) g none (p : Parser Unit Unit Nat) ∧
      Built (HashOrder.id Nat) g (some stayer) (q : Parser Unit Unit Nat) ∧
      ParsePanics p [⟨none, 10⟩] () ∧ ParsePanics q [⟨none, 10⟩] () ∧
      Parses p [⟨none, 10⟩, ⟨none, 99⟩] () (.err f) () ∧
      Parses q [⟨none, 10⟩, ⟨none, 99⟩] () (.fix r) () ∧
      Parses p [⟨none, 10⟩, ⟨none, 11⟩] () (.ok t) () ∧
      Parses p [⟨none, 10⟩, ⟨none, 11⟩, ⟨none, 99⟩] () (.ok t) () :=
    ⟨_, _, _, _, _, _, rfl, Parser.built_of_eval (n := 10) rfl, Parser.built_of_eval_solver (n := 10) rfl,
      Parser.parse_panics (n := 10) (e := .unwrapNone) rfl, Parser.parse_panics (n := 10) (e := .unwrapNone) rfl,
      Parser.parse_returns (n := 20) rfl, Parser.parse_returns (n := 20) rfl,
      Parser.parse_returns (n := 20) rfl, Parser.parse_returns (n := 20) rfl⟩
  refine ⟨g, p, q, f, r, t, hg, .inl hp, hq, ?_, .inr (.inr (by decide)), h1, h2, h3, h4,
    parses_not_panics h5, h5, h6⟩
  exact notLeftRecursive_of_rank (fun _ => false) (fun x => if x = 1 then 2 else if x = 2 then 1 else 0) (by decide)

/-- The solver of the example meets the hypotheses of `C72_no_panic_with_solver`. -/
example (w : List (Token Unit Nat)) (t : Token Unit Nat) :
    (∀ pos fp s, pos ≤ w.length →
      (∀ c, stayer.fixFailedProduction (w ++ [t]) pos fp s ≠ .panic c) ∧
      ∀ r s', stayer.fixFailedProduction (w ++ [t]) pos fp s = .ok (some r, s') →
        r.finalTokenPosition ≤ w.length) ∧
    (∀ pos fps s, pos ≤ w.length →
      (∀ c, stayer.fixFailedProductions (w ++ [t]) pos fps s ≠ .panic c) ∧
      ∀ r s', stayer.fixFailedProductions (w ++ [t]) pos fps s = .ok (some r, s') →
        r.finalTokenPosition ≤ w.length) := by
  refine ⟨fun pos fp s hp => ⟨by simp [stayer], ?_⟩, fun pos fp s hp => ⟨by simp [stayer], ?_⟩⟩ <;>
  · rintro r s' h
    simp only [stayer, Out.ok.injEq, Prod.mk.injEq, Option.some.injEq] at h
    rw [← h.1]
    exact hp

end Verif.Props
