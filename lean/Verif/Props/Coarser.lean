import Verif.Proof.Coarser
import Verif.Props.LL1
import Verif.Props.LL1Grammar
import Verif.Props.Compose
import Verif.Props.Results
import Verif.Props.ErrorsOnly
import Verif.Props.Unambiguous
import Verif.Props.Termination
import Verif.Props.LL1Grammar
import Verif.Props.Compose

/-!
# Property C109: a parser for a coarser grammar
-/

set_option linter.unusedSectionVars false

namespace Verif.Props

open Verif.Spec

variable {σ τ L T T' : Type} [DecidableEq T] [DecidableEq T']

/-- C21 for end-marked grammars, with any solver. -/
theorem parses_any_solver {h : HashOrder T} {eps init e : T} {ps : List (Production T)} {g : Grammar T}
    (hg : Grammar.new h eps init ps = .ok g) {solver : Option (Solver σ L T)} {p : Parser σ L T}
    (hp : Built h g solver p) (hcf : ConflictFree p.transitions) (hadj : NoAdjacentRepeat ps)
    (hem : EndMarked eps init e ps) (hinit : IsNonTerminal ps init) (w rest : List (Token L T)) (n : Node L T)
    (hn : IsTree eps ps init w n) (s : σ) : Parses p (w ++ rest) s (.ok ⟨n⟩) s := by
  have hend := Parser.not_endsEmpty_of_endMarked (Grammar.grammarOf_of_new hg).wf hem hinit hn
  cases solver with
  | none => exact C21_ll1_complete h eps init ps g hg p hp hcf hadj hinit w rest n hn (.inr hend) s
  | some sv =>
    obtain ⟨p0, hp0⟩ := Parser.built_exists (σ := Unit) (L := L) hg none
    have hc : ConflictFree p0.transitions := by
      obtain ⟨ff, hff, e1⟩ := (Parser.built_iff hg).1 hp0
      obtain ⟨ff', hff', e2⟩ := (Parser.built_iff hg).1 hp
      have ht := C11_table_hash_independent h h eps init ps g g ff ff' p0.transitions p.transitions hg hg
        hff hff' (Parser.from_eq_ok e1).2.2 (Parser.from_eq_ok e2).2.2
      intro x a l hl
      exact hcf x a l ((ht x a).symm.trans hl)
    exact ((C58_only_errors_change h h eps init ps g g hg hg p0 hp0 hc sv p hp (w ++ rest) () s).1 _ s).2
      ⟨rfl, C21_ll1_complete h eps init ps g hg p0 hp0 hc hadj hinit w rest n hn (.inr hend) ()⟩

section
variable (f : T → T') (eps init : T) (ps : List (Production T)) (eps' : T') (ps' : List (Production T'))
  (C : Coarser f eps ps eps' ps')
include C

/-- **C109**, for trees: with its symbols merged, a parse tree of the finer grammar is one of the coarser grammar. -/
theorem C109_trees (x : T) (w : List (Token L T)) (n : Node L T) (hn : IsTree eps ps x w n) :
    IsTree eps' ps' (f x) (w.map (renToken f)) (renNode f n) := Coarse.tree C hn

/-- **C109**, for sentences. -/
theorem C109_sentences (w : List T) (hw : Sentence eps init ps w) : Sentence eps' (f init) ps' (w.map f) := by
  refine ⟨by simpa using Coarse.derives C hw.1, ?_⟩
  rw [List.forall_mem_map]
  exact fun a ha => ⟨Coarse.terminal C (hw.2 a ha).1, Coarse.ne_eps C (hw.2 a ha).2⟩

/-- **C109**, construction: if `Grammar::new` accepts the coarser productions then it accepts the finer ones. -/
theorem C109_new (h' : HashOrder T') (init' : T') (g' : Grammar T') (hg' : Grammar.new h' eps' init' ps' = .ok g')
    (h : HashOrder T) : ∃ g, Grammar.new h eps init ps = .ok g :=
  (Grammar.new_eq_ok_iff h eps init ps).2 (Coarse.wellFormed C ((Grammar.new_eq_ok_iff h' eps' init' ps').1 ⟨g', hg'⟩))

/-- **C109**, conditions of the other properties that can be checked on the coarser grammar. -/
theorem C109_conditions :
    (NotLeftRecursive eps' ps' → NotLeftRecursive eps ps) ∧ (NoAdjacentRepeat ps' → NoAdjacentRepeat ps) :=
  ⟨Coarse.notLeftRecursive C, Coarse.noAdjacent C⟩

/-- **C109**: if the coarser grammar has no left recursion, the parser of the finer one returns on every input. -/
theorem C109_returns (hnlr : NotLeftRecursive eps' ps') (h : HashOrder T) (g : Grammar T)
    (hg : Grammar.new h eps init ps = .ok g) (p : Parser σ L T) (hp : Built h g none p) (tokens : List (Token L T)) (s : σ) :
    (∃ r s', Parses p tokens s r s') ∨ ParsePanics p tokens s :=
  C19_terminates h eps init ps g hg none p hp (Coarse.notLeftRecursive C hnlr) tokens (by intro sv h; simp at h)
    (by rintro pos r ⟨_, sv, _, _, h, _⟩; simp at h) s

/-- **C109**, LL(1): if each production of the finer grammar goes to one of its own in the coarser grammar, and the coarser
grammar is LL(1), then the finer one is. -/
theorem C109_ll1 (hsub : (ps.map (renProduction f)).Sublist ps') (hll : IsLL1 eps' ps') : IsLL1 eps ps := by
  have := hll.sublist hsub
  rw [List.pairwise_map] at this
  exact this.imp fun {p q} h e a ⟨h1, h2⟩ =>
    h (congrArg f e) (f a) ⟨Coarse.predicts C h1, Coarse.predicts C h2⟩

/-- **C109**, the table: under the same condition, if the table of the coarser grammar has no conflict then that of the finer
one has none. -/
theorem C109_conflict_free (hsub : (ps.map (renProduction f)).Sublist ps') (hadj : NoAdjacentRepeat ps')
    (h : HashOrder T) (g : Grammar T) (hg : Grammar.new h eps init ps = .ok g) (solver : Option (Solver σ L T))
    (p : Parser σ L T) (hp : Built h g solver p)
    (h' : HashOrder T') (init' : T') (g' : Grammar T') (hg' : Grammar.new h' eps' init' ps' = .ok g')
    (solver' : Option (Solver τ L T')) (p' : Parser τ L T') (hp' : Built h' g' solver' p')
    (hcf : ConflictFree p'.transitions) : ConflictFree p.transitions := by
  obtain ⟨ff, hff, e⟩ := (Parser.built_iff hg).1 hp
  obtain ⟨ff', hff', e'⟩ := (Parser.built_iff hg').1 hp'
  obtain ⟨S, hS, hL⟩ := table_spec hg hff (Parser.from_eq_ok e).2.2
  obtain ⟨S', hS', hL'⟩ := table_spec hg' hff' (Parser.from_eq_ok e').2.2
  exact Coarse.cell_length C hsub hadj hS hL hS' hL' hcf

variable (h : HashOrder T) (g : Grammar T) (hg : Grammar.new h eps init ps = .ok g) (p : Parser σ L T)
  (hp : AnyParser h g p)
  (h' : HashOrder T') (g' : Grammar T') (hg' : Grammar.new h' eps' (f init) ps' = .ok g')
  (solver : Option (Solver τ L T')) (p' : Parser τ L T') (hp' : Built h' g' solver p')
  (hcf : ConflictFree p'.transitions) (hadj : NoAdjacentRepeat ps') (e : T') (hem : EndMarked eps' (f init) e ps')
include hg hp hg' hp' hcf hadj hem

/-- **C109.** Let the coarser grammar be end-marked and its table without conflicts. What any parser for the finer grammar
accepts, with conflicts, with any sets and any solver, the parser for the coarser grammar accepts with the types of the
tokens merged, whatever solver it has, with the same tree up to the merging. -/
theorem C109_accepted (tokens : List (Token L T)) (s s' : σ) (tree : Tree L T) (hr : Parses p tokens s (.ok tree) s')
    (t : τ) : Parses p' (tokens.map (renToken f)) t (.ok ⟨renNode f tree.root⟩) t := by
  obtain ⟨k, -, hinit, h1, -, -⟩ := ok_tree (hp.parserOf hg) hr
  have := parses_any_solver hg' hp' hcf hadj hem ((Coarse.nt C).2 hinit) _ ((tokens.drop k).map (renToken f)) _
    (Coarse.tree C h1) t
  rwa [← List.map_append, List.take_append_drop] at this

/-- **C109**, the other way round: what the parser for the coarser grammar reports as an error, or fixes, no parser for the
finer grammar accepts. -/
theorem C109_rejected (tokens : List (Token L T)) (t t' : τ) (r : ParseResult L T')
    (hr : Parses p' (tokens.map (renToken f)) t r t') (hno : ∀ tree, r ≠ .ok tree) (s s' : σ) (tree : Tree L T) :
    ¬ Parses p tokens s (.ok tree) s' := by
  intro hc
  have := C109_accepted f eps init ps eps' ps' C h g hg p hp h' g' hg' solver p' hp' hcf hadj e hem tokens s s' tree hc t
  exact hno _ (congrArg Prod.fst (Returns.det hr this))

end

/-- `S → A $`, `A → a A | b B | ε`, `B → c A`. -/
def finePs : List (Production Nat) := [⟨1, [2, 13]⟩, ⟨2, [10, 2]⟩, ⟨2, [11, 3]⟩, ⟨2, [0]⟩, ⟨3, [12, 2]⟩]

/-- Merge `c` into `a`. -/
def mergeAC (x : Nat) : Nat := if x = 12 then 10 else x

/-- A checkable form of the condition. -/
theorem coarser_of {f : Nat → Nat} {eps eps' : Nat} {ps ps' : List (Production Nat)} (h1 : ∀ x, f x = eps' ↔ x = eps)
    (h2 : ∀ p ∈ ps, renProduction f p ∈ ps')
    (h3 : ∀ a, (∃ q ∈ ps', q.input = f a) → ∃ q ∈ ps, q.input = a) : Coarser f eps ps eps' ps' := ⟨h1, h2, h3⟩

/-- **C109**: merging the token types `a` and `c`, the grammar stays end-marked and conflict-free; the finer parser accepts
`a b c $` and the coarser one accepts `a b a $`, with the merged tree. The finer one rejects what was accepted by the
coarser one, for example `c $`: the converse does not hold. -/
theorem C109_example : ∃ (g g' : Grammar Nat) (p p' : Parser Unit Nat Nat) (tree : Tree Nat Nat) (r : FailedSymbol Nat Nat)
      (tree' : Tree Nat Nat),
    Coarser mergeAC 0 finePs 0 (finePs.map (renProduction mergeAC)) ∧
    Grammar.new (HashOrder.id Nat) 0 1 finePs = .ok g ∧
    Grammar.new (HashOrder.id Nat) 0 (mergeAC 1) (finePs.map (renProduction mergeAC)) = .ok g' ∧
    AnyParser (HashOrder.id Nat) g p ∧ Built (HashOrder.id Nat) g' none p' ∧ ConflictFree p'.transitions ∧
    NoAdjacentRepeat (finePs.map (renProduction mergeAC)) ∧
    EndMarked 0 (mergeAC 1) 13 (finePs.map (renProduction mergeAC)) ∧
    Parses p [⟨some 1, 10⟩, ⟨some 2, 11⟩, ⟨some 3, 12⟩, ⟨none, 13⟩] () (.ok tree) () ∧
    Parses p' [⟨some 1, 10⟩, ⟨some 2, 11⟩, ⟨some 3, 10⟩, ⟨none, 13⟩] () (.ok ⟨renNode mergeAC tree.root⟩) () ∧
    renNode mergeAC tree.root ≠ tree.root ∧
    Parses p [⟨some 1, 12⟩, ⟨none, 13⟩] () (.err r) () ∧
    Parses p' [⟨some 1, 10⟩, ⟨none, 13⟩] () (.ok tree') () := by
  have C : Coarser mergeAC 0 finePs 0 (finePs.map (renProduction mergeAC)) := by
    refine coarser_of (fun x => ?_) (fun p hp => List.mem_map_of_mem hp) ?_
    · unfold mergeAC
      split <;> omega
    · rintro a ⟨q', hq', e⟩
      have h1 : ∀ q' ∈ finePs.map (renProduction mergeAC), q'.input ∈ [1, 2, 3] := by decide
      have h2 := h1 q' hq'
      rw [e] at h2
      have h3 : a ∈ [1, 2, 3] := by
        unfold mergeAC at h2
        split at h2
        · simp at h2
        · exact h2
      have h4 : ∀ a ∈ [1, 2, 3], ∃ q ∈ finePs, q.input = a := by decide
      exact h4 a h3
  obtain ⟨g, g', p, p', tree, r, tree', hg, hg', hp, hp', hall, hr, hne, hr1, hr2⟩ :
      ∃ (g g' : Grammar Nat) (p p' : Parser Unit Nat Nat) (tree : Tree Nat Nat) (r : FailedSymbol Nat Nat)
        (tree' : Tree Nat Nat),
      Grammar.new (HashOrder.id Nat) 0 1 finePs = .ok g ∧
      Grammar.new (HashOrder.id Nat) 0 (mergeAC 1) (finePs.map (renProduction mergeAC)) = .ok g' ∧
      Built (HashOrder.id Nat) g none p ∧ Built (HashOrder.id Nat) g' none p' ∧
      (∀ x ∈ (finePs.map (renProduction mergeAC)).map (·.input),
        ∀ a ∈ (finePs.map (renProduction mergeAC)).flatMap (·.output),
        ((p'.transitions.getProductions x a).getD []).length ≤ 1) ∧
      Parses p [⟨some 1, 10⟩, ⟨some 2, 11⟩, ⟨some 3, 12⟩, ⟨none, 13⟩] () (.ok tree) () ∧
      renNode mergeAC tree.root ≠ tree.root ∧
      Parses p [⟨some 1, 12⟩, ⟨none, 13⟩] () (.err r) () ∧
      Parses p' [⟨some 1, 10⟩, ⟨none, 13⟩] () (.ok tree') () :=
    ⟨_, _, _, _, _, _, _, rfl, rfl, Parser.built_of_eval (n := 12) rfl, Parser.built_of_eval (n := 12) rfl, by decide,
      Parser.parse_returns (n := 60) rfl, by simp [renNode, renNodes, renToken, mergeAC, Token.clone],
      Parser.parse_returns (n := 60) rfl, Parser.parse_returns (n := 60) rfl⟩
  have hcf := conflictFree_of_check hg' hp' hall
  have hadj : NoAdjacentRepeat (finePs.map (renProduction mergeAC)) := noAdjacentRepeat_of (by decide)
  have hem : EndMarked 0 (mergeAC 1) 13 (finePs.map (renProduction mergeAC)) := by
    refine ⟨by decide, by unfold IsNonTerminal; decide, by decide, ?_, by decide⟩
    intro q hq hqi
    have : ∀ q ∈ finePs.map (renProduction mergeAC), q.input = mergeAC 1 → q.output = [2] ++ [13] := by decide
    exact ⟨[2], this q hq hqi, by decide⟩
  exact ⟨g, g', p, p', tree, r, tree', C, hg, hg', .inl ⟨none, hp⟩, hp', hcf, hadj, hem, hr,
    C109_accepted mergeAC 0 1 finePs 0 _ C (HashOrder.id Nat) g hg p (.inl ⟨none, hp⟩) (HashOrder.id Nat) g' hg' none p'
      hp' hcf hadj 13 hem _ () () tree hr (), hne, hr1, hr2⟩

/-- `S → a $`, `B → b c`. -/
def plainPs : List (Production Nat) := [⟨1, [10, 13]⟩, ⟨2, [11, 12]⟩]

/-- **C109**: a terminal must not be merged with a non-terminal. In `S → a $`, `B → b c` with `a` merged into `B`, the
sentence `a $` is accepted, and the merged one, `B $`, is rejected. -/
theorem C109_terminal_needed : ∃ (f : Nat → Nat) (g g' : Grammar Nat) (p p' : Parser Unit Unit Nat) (tree : Tree Unit Nat)
      (r : FailedSymbol Unit Nat),
    (∀ x, f x = 0 ↔ x = 0) ∧ (∀ q ∈ plainPs, renProduction f q ∈ plainPs.map (renProduction f)) ∧
    Grammar.new (HashOrder.id Nat) 0 1 plainPs = .ok g ∧
    Grammar.new (HashOrder.id Nat) 0 (f 1) (plainPs.map (renProduction f)) = .ok g' ∧
    Built (HashOrder.id Nat) g none p ∧ Built (HashOrder.id Nat) g' none p' ∧ ConflictFree p'.transitions ∧
    NoAdjacentRepeat (plainPs.map (renProduction f)) ∧ EndMarked 0 (f 1) 13 (plainPs.map (renProduction f)) ∧
    Parses p [⟨none, 10⟩, ⟨none, 13⟩] () (.ok tree) () ∧
    Parses p' ([⟨none, 10⟩, ⟨none, 13⟩].map (renToken f)) () (.err r) () := by
  obtain ⟨g, g', p, p', tree, r, hg, hg', hp, hp', hall, hr, hr1⟩ :
      ∃ (g g' : Grammar Nat) (p p' : Parser Unit Unit Nat) (tree : Tree Unit Nat) (r : FailedSymbol Unit Nat),
      Grammar.new (HashOrder.id Nat) 0 1 plainPs = .ok g ∧
      Grammar.new (HashOrder.id Nat) 0 1 (plainPs.map (renProduction fun x => if x = 10 then 2 else x)) = .ok g' ∧
      Built (HashOrder.id Nat) g none p ∧ Built (HashOrder.id Nat) g' none p' ∧
      (∀ x ∈ (plainPs.map (renProduction fun x => if x = 10 then 2 else x)).map (·.input),
        ∀ a ∈ (plainPs.map (renProduction fun x => if x = 10 then 2 else x)).flatMap (·.output),
        ((p'.transitions.getProductions x a).getD []).length ≤ 1) ∧
      Parses p [⟨none, 10⟩, ⟨none, 13⟩] () (.ok tree) () ∧
      Parses p' ([⟨none, 10⟩, ⟨none, 13⟩].map (renToken fun x => if x = 10 then 2 else x)) () (.err r) () :=
    ⟨_, _, _, _, _, _, rfl, rfl, Parser.built_of_eval (n := 12) rfl, Parser.built_of_eval (n := 12) rfl, by decide,
      Parser.parse_returns (n := 60) rfl, Parser.parse_returns (n := 60) rfl⟩
  refine ⟨fun x => if x = 10 then 2 else x, g, g', p, p', tree, r, fun x => ?_, fun q hq => List.mem_map_of_mem hq, hg, hg',
    hp, hp', conflictFree_of_check hg' hp' hall, noAdjacentRepeat_of (by decide), ?_, hr, hr1⟩
  · show (if x = 10 then 2 else x) = 0 ↔ x = 0
    split <;> omega
  · refine ⟨by decide, by unfold IsNonTerminal; decide, by decide, ?_, by decide⟩
    intro q hq hqi
    have : ∀ q ∈ plainPs.map (renProduction fun x => if x = 10 then 2 else x),
      q.input = (if 1 = 10 then 2 else 1) → q.output = [2] ++ [13] := by decide
    exact ⟨[2], this q hq hqi, by decide⟩

/-- `S → B $`, `B → A`, `A → a | b c`. -/
def twoWaysPs : List (Production Nat) := [⟨1, [3, 13]⟩, ⟨3, [2]⟩, ⟨2, [10]⟩, ⟨2, [11, 12]⟩]

/-- **C109**: the table of the coarser grammar must have no conflict. In `S → B $`,
`B → A`, `A → a | b c` with `b` merged into `a`,
the sentence `b c $` is accepted, and the merged one, `a c $`, is rejected although it is a sentence. -/
theorem C109_conflict_breaks : ∃ (f : Nat → Nat) (g g' : Grammar Nat) (p p' : Parser Unit Unit Nat) (tree : Tree Unit Nat)
      (r : FailedSymbol Unit Nat),
    Coarser f 0 twoWaysPs 0 (twoWaysPs.map (renProduction f)) ∧
    Grammar.new (HashOrder.id Nat) 0 1 twoWaysPs = .ok g ∧
    Grammar.new (HashOrder.id Nat) 0 (f 1) (twoWaysPs.map (renProduction f)) = .ok g' ∧
    Built (HashOrder.id Nat) g none p ∧ Built (HashOrder.id Nat) g' none p' ∧ ¬ ConflictFree p'.transitions ∧
    NoAdjacentRepeat (twoWaysPs.map (renProduction f)) ∧ EndMarked 0 (f 1) 13 (twoWaysPs.map (renProduction f)) ∧
    Parses p [⟨none, 11⟩, ⟨none, 12⟩, ⟨none, 13⟩] () (.ok tree) () ∧
    Parses p' ([⟨none, 11⟩, ⟨none, 12⟩, ⟨none, 13⟩].map (renToken f)) () (.err r) () := by
  obtain ⟨g, g', p, p', tree, r, hg, hg', hp, hp', hcell, hr, hr1⟩ :
      ∃ (g g' : Grammar Nat) (p p' : Parser Unit Unit Nat) (tree : Tree Unit Nat) (r : FailedSymbol Unit Nat),
      Grammar.new (HashOrder.id Nat) 0 1 twoWaysPs = .ok g ∧
      Grammar.new (HashOrder.id Nat) 0 1 (twoWaysPs.map (renProduction fun x => if x = 11 then 10 else x)) = .ok g' ∧
      Built (HashOrder.id Nat) g none p ∧ Built (HashOrder.id Nat) g' none p' ∧
      p'.transitions.getProductions 2 10 = some [⟨2, [10]⟩, ⟨2, [10, 12]⟩] ∧
      Parses p [⟨none, 11⟩, ⟨none, 12⟩, ⟨none, 13⟩] () (.ok tree) () ∧
      Parses p' ([⟨none, 11⟩, ⟨none, 12⟩, ⟨none, 13⟩].map (renToken fun x => if x = 11 then 10 else x)) () (.err r) () :=
    ⟨_, _, _, _, _, _, rfl, rfl, Parser.built_of_eval (n := 12) rfl, Parser.built_of_eval (n := 12) rfl, by decide,
      Parser.parse_returns (n := 60) rfl, Parser.parse_returns (n := 60) rfl⟩
  refine ⟨fun x => if x = 11 then 10 else x, g, g', p, p', tree, r, ?_, hg, hg', hp, hp', ?_,
    noAdjacentRepeat_of (by decide), ?_, hr, hr1⟩
  · refine coarser_of (fun x => ?_) (fun q hq => List.mem_map_of_mem hq) ?_
    · show (if x = 11 then 10 else x) = 0 ↔ x = 0
      split <;> omega
    · rintro a ⟨q', hq', e⟩
      have h1 : ∀ q' ∈ twoWaysPs.map (renProduction fun x => if x = 11 then 10 else x), q'.input ∈ [1, 2, 3] := by decide
      have h2 := h1 q' hq'
      rw [e] at h2
      have h3 : a ∈ [1, 2, 3] := by
        change (if a = 11 then 10 else a) ∈ [1, 2, 3] at h2
        split at h2
        · simp at h2
        · exact h2
      have h4 : ∀ a ∈ [1, 2, 3], ∃ q ∈ twoWaysPs, q.input = a := by decide
      exact h4 a h3
  · intro hcf
    have := hcf 2 10 _ hcell
    simp at this
  · refine ⟨by decide, by unfold IsNonTerminal; decide, by decide, ?_, by decide⟩
    intro q hq hqi
    have : ∀ q ∈ twoWaysPs.map (renProduction fun x => if x = 11 then 10 else x),
      q.input = (if 1 = 11 then 10 else 1) → q.output = [3] ++ [13] := by decide
    exact ⟨[3], this q hq hqi, by decide⟩

end Verif.Props
