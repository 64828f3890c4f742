import Verif.Proof.ExpectedAt
import Verif.Props.Local
import Verif.Props.Results

/-!
# Property C66: what an error report says was expected
-/

set_option linter.unusedSectionVars false

namespace Verif.Props

open Verif.Spec Verif.Examples

variable {σ L T : Type} [DecidableEq T]

theorem exists_innermost : (f : FailedSymbol L T) → ∃ y, Innermost f y
  | .mk [] x => ⟨x, .here x⟩
  | .mk (.mk g l m :: fps) x => by
    obtain ⟨y, hy⟩ := exists_innermost g
    exact ⟨y, .deep _ _ (.mk g l m) y (by simp) hy⟩

theorem innermost_unique {f : FailedSymbol L T} (h : IsPath f) {y y' : T} (hy : Innermost f y)
    (hy' : Innermost f y') : y = y' := by
  induction h with
  | last z =>
    cases hy with
    | here =>
      cases hy' with
      | here => rfl
      | deep _ _ _ _ hm _ => simp at hm
    | deep _ _ _ _ hm _ => simp at hm
  | next fp x _ ih =>
    cases hy with
    | deep _ _ fp1 _ hm h1 =>
      cases hy' with
      | deep _ _ fp2 _ hm' h2 =>
        simp only [List.mem_singleton] at hm hm'
        subst hm hm'
        exact ih h1 h2

mutual
theorem isPath_of_failedSymOk {eps : T} {ps : List (Production T)} {sv : Bool}
    {cand : T → T → List (List T)} {tokens : List (Token L T)} (hcf : ∀ x a, (cand x a).length ≤ 1)
    {x : T} {f : FailedSymbol L T} : FailedSymOk eps ps sv cand tokens x f → IsPath f
  | .terminal x _ _ => .last x
  | .nonTerminal x _ fps _ _ h => isPath_of_failedProdsOk hcf h (hcf _ _) x
theorem isPath_of_failedProdsOk {eps : T} {ps : List (Production T)} {sv : Bool}
    {cand : T → T → List (List T)} {tokens : List (Token L T)} (hcf : ∀ x a, (cand x a).length ≤ 1)
    {outs : List (List T)} {fps : List (FailedProduction L T)} :
    FailedProdsOk eps ps sv cand tokens outs fps → outs.length ≤ 1 → ∀ x, IsPath (.mk fps x)
  | .nil, _, x => .last x
  | .cons before y after f parsed outs fps h _ h', hl, x => by
    have ih := isPath_of_failedSymOk hcf h
    have : outs = [] := by simpa using hl
    subst this
    cases h'
    exact .next _ _ ih
end

theorem allowed_of_reaches {eps init : T} {ps : List (Production T)} (hw : WellFormed eps ps)
    (hinit : IsNonTerminal ps init) {tokens : List (Token L T)} {y : T} {v : List T} {k : Nat}
    (h : Parser.Recovery.ReachesTo eps ps [init] (Parser.Recovery.types tokens 0 k) (y :: v)) :
    Allowed eps init ps tokens y k := by
  obtain ⟨h1, h2⟩ := h
  rw [Parser.Recovery.types, Parser.word_zero] at h1 h2
  refine ⟨?_, v, h1⟩
  intro t ht
  have hm : t.tType ∈ (tokens.take k).map (·.tType) := List.mem_map_of_mem ht
  obtain ⟨h3, h4⟩ := h2 _ hm
  refine ⟨?_, h4⟩
  rcases h1.symbols hw t.tType (List.mem_append.2 (.inl hm)) with h5 | ⟨_, h6⟩
  · simp only [List.mem_singleton] at h5
    exact absurd (h5 ▸ hinit) h3
  · exact ⟨h6, h3⟩

/-- **C66**, expected symbols: without a solver, each innermost symbol of an error report (there is at
least one) was expected and could not be derived at some position of the input: the grammar allows it
behind the tokens in front of that position, and it is a terminal that does not stand there or a
non-terminal without production for the token that does. -/
theorem C66_innermost_expected (h : HashOrder T) (eps init : T) (ps : List (Production T))
    (g : Grammar T) (hg : Grammar.new h eps init ps = .ok g) (hinit : IsNonTerminal ps init)
    (p : Parser σ L T) (hp : Built h g none p) (tokens : List (Token L T)) (s s' : σ)
    (f : FailedSymbol L T) (hr : Parses p tokens s (.err f) s') :
    (∃ y, Innermost f y) ∧
    ∀ y, Innermost f y → ∃ k, k ≤ tokens.length ∧ Allowed eps init ps tokens y k ∧
      Stuck ps (candidates p.transitions) tokens y k := by
  refine ⟨exists_innermost f, ?_⟩
  have hwf := (Grammar.grammarOf_of_new hg).wf
  have P := (Parser.tableParser_of_built hg hp).1.toParserOf
  cases tokens with
  | nil =>
    obtain ⟨n, hn⟩ := Parser.parses_at hr
    simp [Parser.parseFromTokens] at hn
  | cons t ts =>
    obtain ⟨o, ho, hres⟩ := ((C38_exact_result h eps init ps g hg none p hp t ts s).1 _ _).1 hr
    have hcand : ∀ x a out, out ∈ candidates p.transitions x a → (⟨x, out⟩ : Production T) ∈ ps := by
      intro x a out ho
      rw [← Parser.getTokenProductions_eq] at ho
      exact P.cand x a out ho
    have hpost := Parser.Recovery.choice_expected hwf hcand ho (fun o ho => hcand _ _ _ ho) (Nat.zero_le _)
    match o, hres, hpost with
    | .found (.node _ _ _) _, hres, _ => simp [Recovery.result] at hres
    | .found (.fixed _ _) _, hres, _ => simp [Recovery.result] at hres
    | .failed f' s1, hres, hpost =>
      simp only [Recovery.result, Option.some.injEq, Prod.mk.injEq, ParseResult.err.injEq] at hres
      obtain ⟨rfl, rfl⟩ := hres
      intro y hy
      obtain ⟨k, v, _, h2, h3, h4⟩ := hpost (fun he => .inr ⟨hinit, t, rfl, he⟩) y hy
      exact ⟨k, h2, allowed_of_reaches hwf hinit h3, h4⟩

/-- **C66**, one path: if the table has no conflicts, then with any solver (or none) every symbol of an
error report has at most one failed production, and so there is exactly one innermost symbol. -/
theorem C66_report_is_path (h : HashOrder T) (eps init : T) (ps : List (Production T))
    (g : Grammar T) (hg : Grammar.new h eps init ps = .ok g) (solver : Option (Solver σ L T))
    (p : Parser σ L T) (hp : Built h g solver p) (hcf : ConflictFree p.transitions)
    (tokens : List (Token L T)) (s s' : σ) (f : FailedSymbol L T)
    (hr : Parses p tokens s (.err f) s') : IsPath f ∧ ∃ y, ∀ z, Innermost f z ↔ z = y := by
  have hlen : ∀ x a, (candidates p.transitions x a).length ≤ 1 := by
    intro x a
    rw [← Parser.getTokenProductions_eq]
    exact Parser.conflictFree_length hcf x a
  obtain ⟨t, _, h1, _, h2⟩ := C25_err_lists_candidates h eps init ps g hg solver p hp tokens s s' f hr
  have hpath : IsPath f := by
    cases f with
    | mk fps x => exact isPath_of_failedProdsOk hlen h2 (hlen _ _) x
  refine ⟨hpath, ?_⟩
  obtain ⟨y, hy⟩ := exists_innermost f
  exact ⟨y, fun z => ⟨fun hz => innermost_unique hpath hz hy, fun e => e ▸ hy⟩⟩

/-- **C66**, position: take an end-marked grammar whose table has no conflicts, without two equal adjacent
non-terminals, in which every non-terminal derives some word. In an error report (without a solver) the
innermost symbol is what was expected at the first token that no sentence continues with (or behind the
last token, if the input ends too early): the `k` tokens in front begin a sentence, and those with the
next one do not. -/
theorem C66_expected_at_first_bad_token (h : HashOrder T) (eps init : T) (ps : List (Production T))
    (g : Grammar T) (hg : Grammar.new h eps init ps = .ok g) (hinit : IsNonTerminal ps init)
    (p : Parser σ L T) (hp : Built h g none p) (hcf : ConflictFree p.transitions)
    (hadj : NoAdjacentRepeat ps) (e : T) (hem : EndMarked eps init e ps)
    (hprod : ∀ x, IsNonTerminal ps x → Productive eps ps x)
    (tokens : List (Token L T)) (s s' : σ) (f : FailedSymbol L T)
    (hr : Parses p tokens s (.err f) s') :
    ∃ y k, (∀ z, Innermost f z ↔ z = y) ∧ k ≤ tokens.length ∧ Allowed eps init ps tokens y k ∧
      Stuck ps (candidates p.transitions) tokens y k ∧
      BeginsSentence eps init ps ((tokens.take k).map (·.tType)) ∧
      (k < tokens.length → ¬ BeginsSentence eps init ps ((tokens.take (k + 1)).map (·.tType))) := by
  have hwf := (Grammar.grammarOf_of_new hg).wf
  have P := (Parser.tableParser_of_built hg hp).1.toParserOf
  obtain ⟨_, y0, huniq⟩ := C66_report_is_path h eps init ps g hg none p hp hcf tokens s s' f hr
  cases tokens with
  | nil =>
    obtain ⟨n, hn⟩ := Parser.parses_at hr
    simp [Parser.parseFromTokens] at hn
  | cons t ts =>
    obtain ⟨o, ho, hres⟩ := ((C38_exact_result h eps init ps g hg none p hp t ts s).1 _ _).1 hr
    have hlen : ∀ x a, (candidates p.transitions x a).length ≤ 1 := by
      intro x a
      rw [← Parser.getTokenProductions_eq]
      exact Parser.conflictFree_length hcf x a
    have hcand : ∀ x a out, out ∈ candidates p.transitions x a → (⟨x, out⟩ : Production T) ∈ ps := by
      intro x a out ho
      rw [← Parser.getTokenProductions_eq] at ho
      exact P.cand x a out ho
    have hpost := Parser.Recovery.choice_expectedAt hwf hcand hlen ho (hlen _ _)
      (fun o ho => hcand _ _ _ ho) (Nat.zero_le _)
    match o, hres, hpost with
    | .found (.node _ _ _) _, hres, _ => simp [Recovery.result] at hres
    | .found (.fixed _ _) _, hres, _ => simp [Recovery.result] at hres
    | .failed f' s1, hres, hpost =>
      simp only [Recovery.result, Option.some.injEq, Prod.mk.injEq, ParseResult.err.injEq] at hres
      obtain ⟨rfl, rfl⟩ := hres
      obtain ⟨y, k, v, hy, _, h2, h3, h4, h5⟩ := hpost (fun he => .inr ⟨hinit, t, rfl, he⟩)
      have hall := allowed_of_reaches hwf hinit h3
      refine ⟨y, k, ?_, h2, hall, h4, ?_, ?_⟩
      · intro z
        rw [huniq z, (huniq y).1 hy]
      · rw [← viable_iff_begins h eps init ps g hg hinit hprod]
        refine ⟨?_, y :: hall.2.choose, hall.2.choose_spec⟩
        intro a ha
        obtain ⟨u, hu, rfl⟩ := List.mem_map.1 ha
        exact hall.1 u hu
      · rintro hk ⟨z, hz⟩
        obtain ⟨w, hw⟩ : ∃ w : List (Token L T), w = ((t :: ts).take (k + 1)) ++ z.map (fun a => ⟨none, a⟩) :=
          ⟨_, rfl⟩
        have hmap : w.map (·.tType) = ((t :: ts).take (k + 1)).map (·.tType) ++ z := by
          rw [hw, List.map_append, List.map_map]
          congr 1
          exact List.map_id z
        obtain ⟨n, _, hok⟩ := C21_ll1_complete_end_marked h eps init ps g hg p hp hcf hadj e hem w []
          (by rw [hmap]; exact hz) s
        rw [List.append_nil] at hok
        have hagree : Parser.Recovery.AgreeAt (t :: ts) w k := by
          intro i hi
          rw [hw, List.getElem?_append_left (by rw [List.length_take]; omega), List.getElem?_take,
            if_pos (by omega)]
        obtain ⟨ts', hts'⟩ : ∃ ts', w = t :: ts' := by
          rw [hw]
          exact ⟨ts.take k ++ z.map (fun a => ⟨none, a⟩), by simp⟩
        have herr : Parses p w s (.err f') s1 := by
          rw [hts']
          refine ((C38_exact_result h eps init ps g hg none p hp t ts' s).1 _ _).2 ⟨.failed f' s1, ?_, rfl⟩
          unfold Recovers
          rw [← hts']
          exact h5 w hagree
        have := (Parser.Parses.det hok herr).1
        simp at this

/-- The hypotheses of C66 are met by the input `id id $` of the expression grammar; the innermost symbol of
its report is the symbol `T'`, expected behind the first token. -/
example : ∃ g p f, Grammar.new (HashOrder.id Nat) 0 1 exprPs = .ok g ∧
    Built (σ := Unit) (L := Unit) (HashOrder.id Nat) g none p ∧ ConflictFree p.transitions ∧
    NoAdjacentRepeat exprPs ∧ EndMarked 0 1 16 exprPs ∧ IsNonTerminal exprPs 1 ∧
    (∀ x, IsNonTerminal exprPs x → Productive 0 exprPs x) ∧
    Parses p [⟨none, 15⟩, ⟨none, 15⟩, ⟨none, 16⟩] () (.err f) () ∧ Innermost f 5 := by
  obtain ⟨g, p, f, hg, hp, hf, hi⟩ : ∃ g p f, Grammar.new (HashOrder.id Nat) 0 1 exprPs = .ok g ∧
      Built (σ := Unit) (L := Unit) (HashOrder.id Nat) g none p ∧
      Parses p [⟨none, 15⟩, ⟨none, 15⟩, ⟨none, 16⟩] () (.err f) () ∧ Innermost f 5 := by
    refine ⟨_, _, _, rfl, Parser.built_of_eval (n := 10) rfl, Parser.parse_returns (n := 20) rfl, ?_⟩
    refine .deep _ _ _ _ (List.mem_singleton.2 rfl) ?_
    refine .deep _ _ _ _ (List.mem_singleton.2 rfl) ?_
    refine .deep _ _ _ _ (List.mem_singleton.2 rfl) ?_
    exact .here _
  exact ⟨g, p, f, hg, hp, exprPs_conflictFree p _ g hg none hp, exprPs_noAdjacentRepeat,
    exprPs_endMarked, ⟨⟨1, [2, 16]⟩, by decide, rfl⟩, fun x hx => (exprPs_reduced x hx).2, hf, hi⟩

end Verif.Props
