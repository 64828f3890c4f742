import Verif.Proof.StackMachine
import Verif.Props.Predictive
import Verif.Props.LL1
import Verif.Spec.Viable
import Verif.Props.EndOfInput

/-!
# Property C104: the stack machine of predictive parsing, and what may still come
-/

set_option linter.unusedSectionVars false

namespace Verif.Props

open Verif.Spec Verif.Examples

variable {σ L T : Type} [DecidableEq T]

/-- **C104.** With a table without conflicts, made from computed sets or from sets of the user, the recursive parser
accepts exactly the inputs on which the textbook's stack machine, with that table, empties its stack. -/
theorem C104_machine (h : HashOrder T) (eps init : T) (ps : List (Production T))
    (g : Grammar T) (hg : Grammar.new h eps init ps = .ok g) (p : Parser σ L T) (hp : AnyParser h g p)
    (hcf : ConflictFree p.transitions) (hinit : IsNonTerminal ps init) (tokens : List (Token L T)) (s : σ) :
    (∃ tree s', Parses p tokens s (.ok tree) s') ↔
      Empties eps ps (candidates p.transitions) [init] (tokens.map (·.tType)) := by
  rw [StackMachine.empties_iff]
  constructor
  · rintro ⟨tree, s', hr⟩
    obtain ⟨k, hk⟩ := C70_ok_predicted h eps init ps g hg p hp tokens s s' tree hr
    exact ⟨_, _, hk⟩
  · rintro ⟨n, k, hk⟩
    exact ⟨⟨n⟩, s, (C70_conflict_free_exact h eps init ps g hg p hp hcf hinit tokens s s ⟨n⟩).2 ⟨rfl, k, hk⟩⟩

/-- **C104**, what may still come. With a table without conflicts, what a parser knows about the beginning `u` of an
input is a list of symbols: either no input that begins with `u` is accepted, or there is a stack such that for every
rest of the input the parser accepts iff the machine empties this stack on the rest alone. -/
theorem C104_rest (h : HashOrder T) (eps init : T) (ps : List (Production T))
    (g : Grammar T) (hg : Grammar.new h eps init ps = .ok g) (p : Parser σ L T) (hp : AnyParser h g p)
    (hcf : ConflictFree p.transitions) (hinit : IsNonTerminal ps init) (u : List (Token L T)) :
    (∀ v s, ¬ ∃ tree s', Parses p (u ++ v) s (.ok tree) s') ∨
    ∃ st, ∀ v s, (∃ tree s', Parses p (u ++ v) s (.ok tree) s') ↔
      Empties eps ps (candidates p.transitions) st (v.map (·.tType)) := by
  have P := hp.parserOf hg
  by_cases hno : ∃ v s, ∃ tree s', Parses p (u ++ v) s (.ok tree) s'
  · obtain ⟨v, s, hr⟩ := hno
    rw [C104_machine h eps init ps g hg p hp hcf hinit, List.map_append] at hr
    obtain ⟨st, u1, u2, -, h2, -, h4⟩ := StackMachine.advance P.grammar.wf
      (by rw [candidates_eq]; exact P.cand) (by rw [candidates_eq]; exact Parser.conflictFree_length hcf) hr rfl
    refine .inr ⟨st, fun v s => ?_⟩
    rw [C104_machine h eps init ps g hg p hp hcf hinit, List.map_append, h4]
    rcases h2 with rfl | rfl
    · rfl
    · exact ⟨fun _ => .done _, fun _ => .done _⟩
  · left
    intro v s hr
    exact hno ⟨v, s, hr⟩

/-- **C104**, for sentences. Let the grammar be end-marked, without two equal non-terminals side by side, and its
table without conflicts. For every beginning `u` of a sentence there is one list of symbols `st` of the grammar such
that `u st` is derived from the initial symbol and the rests that make `u` a sentence are exactly the words of
terminals derived from `st`. -/
theorem C104_sentences (h : HashOrder T) (eps init : T) (ps : List (Production T))
    (g : Grammar T) (hg : Grammar.new h eps init ps = .ok g) (p : Parser σ L T) (hp : Built h g none p)
    (hcf : ConflictFree p.transitions) (hadj : NoAdjacentRepeat ps) (hinit : IsNonTerminal ps init)
    (e : T) (hem : EndMarked eps init e ps) (s : σ) (u : List T) (hu : BeginsSentence eps init ps u) :
    ∃ st, Derives eps ps [init] (u ++ st) ∧
      ∀ v, Sentence eps init ps (u ++ v) ↔ Derives eps ps st v ∧ ∀ a ∈ v, IsTerminal ps a ∧ a ≠ eps := by
  have P := (AnyParser.parserOf hg (.inl ⟨none, hp⟩) : Parser.ParserOf eps init ps p)
  have hwf := P.grammar.wf
  have hie : init ≠ eps := fun h => by obtain ⟨q, hq, e⟩ := hinit; exact (hwf q hq).1 (e.trans h)
  let tok : List T → List (Token L T) := fun w => w.map (Token.mk none)
  have htok : ∀ w, (tok w).map (·.tType) = w := fun w => by simp [tok, List.map_map, Function.comp_def]
  have hfree : ∀ a b, Sentence eps init ps a → Sentence eps init ps (a ++ b) → b = [] := by
    intro a b ha hab
    obtain ⟨n, hn, hr⟩ := C21_ll1_complete_end_marked h eps init ps g hg p hp hcf hadj e hem (tok a) (tok b)
      (by rwa [htok]) s
    obtain ⟨m, hm, hr'⟩ := C21_ll1_complete_end_marked h eps init ps g hg p hp hcf hadj e hem (tok (a ++ b)) []
      (by rwa [htok]) s
    rw [List.append_nil, show tok (a ++ b) = tok a ++ tok b by simp [tok]] at hr'
    have e' := (Parser.Parses.det hr hr').1
    simp only [ParseResult.ok.injEq, Tree.mk.injEq] at e'
    subst e'
    have e1 := isTree_leaves hwf hn
    rw [isTree_leaves hwf hm] at e1
    have := congrArg List.length e1
    simp only [tok, List.length_map, List.length_append] at this
    exact List.length_eq_zero_iff.1 (by omega)
  have hmach : ∀ w, Sentence eps init ps w → Empties eps ps (candidates p.transitions) [init] w := by
    intro w hw
    obtain ⟨n, -, hr⟩ := C21_ll1_complete_end_marked h eps init ps g hg p hp hcf hadj e hem (tok w) []
      (by rwa [htok]) s
    rw [List.append_nil] at hr
    simpa [htok] using (C104_machine h eps init ps g hg p (.inl ⟨none, hp⟩) hcf hinit (tok w) s).1 ⟨_, _, hr⟩
  have hcand : ∀ x a out, out ∈ candidates p.transitions x a → (⟨x, out⟩ : Production T) ∈ ps := by
    rw [candidates_eq]
    exact P.cand
  obtain ⟨z, hz⟩ := hu
  obtain ⟨st, u1, u2, rfl, h2, h3, h4⟩ := StackMachine.advance hwf hcand
    (by rw [candidates_eq]; exact Parser.conflictFree_length hcf) (hmach _ hz) rfl
  have hs0 : Parser.strip eps [init] = [init] := by simp [Parser.strip, hie]
  rw [hs0] at h3
  have hu2 : u2 = [] := by
    rcases h2 with h2 | rfl
    · exact h2
    · have : Sentence eps init ps u1 := ⟨by simpa [Parser.strip] using h3, fun a ha => hz.2 a (by simp [ha])⟩
      have := hfree u1 (u2 ++ z) this (by simpa using hz)
      simp only [List.append_eq_nil_iff] at this
      exact this.1
  subst hu2
  simp only [List.append_nil, List.nil_append] at hz h4 ⊢
  refine ⟨_, h3, fun v => ⟨fun hv => ⟨?_, fun a ha => hv.2 a (by simp [ha])⟩, fun ⟨hv, ht⟩ => ⟨?_, ?_⟩⟩⟩
  · obtain ⟨v1, v2, rfl, hd⟩ := StackMachine.derives hwf hcand ((h4 v).1 (hmach _ hv))
    have h5 : Sentence eps init ps (u1 ++ v1) := by
      refine ⟨h3.trans (by simpa using hd.context u1 []), fun a ha => hv.2 a ?_⟩
      simp only [List.mem_append] at ha ⊢
      tauto
    have := hfree _ v2 h5 (by simpa using hv)
    subst this
    simpa using hd
  · exact h3.trans (by simpa using hv.context u1 [])
  · intro a ha
    rcases List.mem_append.1 ha with ha | ha
    · exact hz.2 a (by simp [ha])
    · exact ht a ha

/-- The hypotheses are met by `S → a B c`, `B → b | ε`: after `a`, the stack is `B c`. The machine empties it on `c` and
on `b c`, not on `b`. -/
theorem C104_example : ∃ g p t, Grammar.new (HashOrder.id Nat) 0 1 shortPs = .ok g ∧
    Built (HashOrder.id Nat) g none (p : Parser Unit Unit Nat) ∧ ConflictFree p.transitions ∧
    NoAdjacentRepeat shortPs ∧ IsNonTerminal shortPs 1 ∧ EndMarked 0 1 12 shortPs ∧ BeginsSentence 0 1 shortPs [10] ∧
    Parses p [⟨none, 10⟩, ⟨none, 12⟩] () (.ok t) () ∧
    Empties 0 shortPs (candidates p.transitions) [2, 12] [12] ∧
    Empties 0 shortPs (candidates p.transitions) [2, 12] [11, 12] ∧
    ¬ Empties 0 shortPs (candidates p.transitions) [2, 12] [11] := by
  obtain ⟨g, p, t, hg, hp, hr, hall, c1, c2⟩ : ∃ g p t,
      Grammar.new (HashOrder.id Nat) 0 1 shortPs = .ok g ∧
      Built (HashOrder.id Nat) g none (p : Parser Unit Unit Nat) ∧
      Parses p [⟨none, 10⟩, ⟨none, 12⟩] () (.ok t) () ∧
      (∀ x ∈ shortPs.map (·.input), ∀ a ∈ shortPs.flatMap (·.output),
        ((p.transitions.getProductions x a).getD []).length ≤ 1) ∧
      candidates p.transitions 2 12 = [[0]] ∧ candidates p.transitions 2 11 = [[11]] :=
    ⟨_, _, _, rfl, Parser.built_of_eval (n := 10) rfl, Parser.parse_returns (n := 40) rfl, by decide, by decide,
      by decide⟩
  have n12 : ¬ IsNonTerminal shortPs 12 := by unfold IsNonTerminal; decide
  have n11 : ¬ IsNonTerminal shortPs 11 := by unfold IsNonTerminal; decide
  have n0 : ¬ IsNonTerminal shortPs 0 := by unfold IsNonTerminal; decide
  have n2 : IsNonTerminal shortPs 2 := by unfold IsNonTerminal; decide
  refine ⟨g, p, t, hg, hp, conflictFree_of_check hg hp hall, noAdjacentRepeat_of_check (by decide),
    by unfold IsNonTerminal; decide, ?_, ⟨[11, 12], ?_, ?_⟩, hr,
    .expand 2 12 [0] _ _ n2 (by simp [c1]) (.skip _ _ (.read _ _ _ n12 (by decide) (.done _))),
    .expand 2 11 [11] _ _ n2 (by simp [c2]) (.read _ _ _ n11 (by decide) (.read _ _ _ n12 (by decide) (.done _))), ?_⟩
  · refine ⟨by decide, n12, by decide, ?_, by decide⟩
    intro q hq e
    have : q = ⟨1, [10, 2, 12]⟩ := by
      revert q
      decide
    subst this
    exact ⟨[10, 2], rfl, by decide⟩
  · have d1 : Derives 0 shortPs [1] [10, 2, 12] := .of_production (p := ⟨1, [10, 2, 12]⟩) (by decide)
    have d2 : Derives 0 shortPs [2] [11] := .of_production (p := ⟨2, [11]⟩) (by decide)
    exact d1.trans (d2.context [10] [12])
  · unfold IsTerminal IsNonTerminal; decide
  · intro h
    obtain ⟨a, w, out, e, ho, h⟩ := StackMachine.inv_expand n0 n2 h
    simp only [List.cons.injEq] at e
    obtain ⟨rfl, rfl⟩ := e
    rw [c2, List.mem_singleton] at ho
    subst ho
    obtain ⟨w, e, h⟩ := StackMachine.inv_read n11 (by decide) h
    simp only [List.cons.injEq] at e
    obtain ⟨-, rfl⟩ := e
    obtain ⟨w, e, -⟩ := StackMachine.inv_read n12 (by decide) h
    simp at e

end Verif.Props
