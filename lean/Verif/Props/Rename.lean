import Verif.Proof.Rename

/-!
# Property C52: the names of the symbols do not matter
-/

set_option linter.unusedSectionVars false

namespace Verif.Props

open Verif.Spec

variable {σ L T T' : Type} [DecidableEq T] [DecidableEq T']

/-- **C52**, construction: `Grammar::new` accepts the renamed productions iff it accepts the original
ones. -/
theorem C52_renaming_accepted (f : T → T') (hf : Function.Injective f) (h : HashOrder T)
    (h' : HashOrder T') (eps init : T) (ps : List (Production T)) :
    (∃ g, Grammar.new h eps init ps = .ok g) ↔
      ∃ g', Grammar.new h' (f eps) (f init) (ps.map (renProduction f)) = .ok g' := by
  rw [Grammar.new_eq_ok_iff, Grammar.new_eq_ok_iff, wellFormed_ren fun x y e => hf e]

/-- **C52**, table: the cells of the table of the renamed grammar are the renamed cells. -/
theorem C52_renaming_table (f : T → T') (hf : Function.Injective f) (h : HashOrder T)
    (h' : HashOrder T') (eps init : T) (ps : List (Production T)) (g : Grammar T) (g' : Grammar T')
    (hg : Grammar.new h eps init ps = .ok g)
    (hg' : Grammar.new h' (f eps) (f init) (ps.map (renProduction f)) = .ok g')
    (ff : FirstFollow T) (ff' : FirstFollow T') (t : Transitions T) (t' : Transitions T')
    (hff : Returns (fun n => FirstFollow.from h n g) ff)
    (hff' : Returns (fun n => FirstFollow.from h' n g') ff')
    (ht : Transitions.from h g ff = .ok t) (ht' : Transitions.from h' g' ff' = .ok t') (A a : T) :
    t'.getProductions (f A) (f a) = (t.getProductions A a).map (List.map (renProduction f)) := by
  obtain ⟨S, hS, hL⟩ := table_spec hg hff ht
  obtain ⟨S', hS', hL'⟩ := table_spec hg' hff' ht'
  exact cells_ren (fun x y e => hf e) hS hL hS' hL' A a

/-- **C52.** Renaming the symbols by an injective function, in the grammar, in the input and in what the
solver is asked and answers, renames the symbols in the result and changes nothing else: the same kind
of result with the renamed symbols and the same solver state, or a panic, or no return, in both cases.
The hash orders of the two grammars need not be related. -/
theorem C52_renaming (f : T → T') (hf : Function.Injective f) (h : HashOrder T) (h' : HashOrder T')
    (eps init : T) (ps : List (Production T)) (g : Grammar T) (g' : Grammar T')
    (hg : Grammar.new h eps init ps = .ok g)
    (hg' : Grammar.new h' (f eps) (f init) (ps.map (renProduction f)) = .ok g')
    (solver : Option (Solver σ L T)) (solver' : Option (Solver σ L T'))
    (hs : SolversRenamed f solver solver') (p : Parser σ L T) (p' : Parser σ L T')
    (hp : Built h g solver p) (hp' : Built h' g' solver' p') (tokens : List (Token L T)) (s : σ) :
    (∀ r s1, Parses p tokens s r s1 → Parses p' (tokens.map (renToken f)) s (renResult f r) s1) ∧
    (∀ r' s1, Parses p' (tokens.map (renToken f)) s r' s1 →
      ∃ r, Parses p tokens s r s1 ∧ r' = renResult f r) ∧
    (ParsePanics p tokens s ↔ ParsePanics p' (tokens.map (renToken f)) s) ∧
    (ParseDiverges p tokens s ↔ ParseDiverges p' (tokens.map (renToken f)) s) := by
  have hs1 := (Parser.tableParser_of_built hg hp).2
  have hs2 := (Parser.tableParser_of_built hg' hp').2
  have P := (Parser.tableParser_of_built hg hp).1.toParserOf
  obtain ⟨h1, h2, h3, h4⟩ := Parser.outcomes_of_sim (R := Eq) (s := s) (s' := s)
    (fun n => Parser.Ren.parseFromTokens_ren (tokens := tokens) (f := f) P
      (Parser.Ren.renAgree_of_built (fun x y e => hf e) hg hg' hp hp')
      (Parser.Ren.fixSim_of_renamed (by rw [hs1, hs2]; exact hs)) n) rfl
  refine ⟨?_, ?_, h3, h4⟩
  · intro r s1 hr
    obtain ⟨s2, hr', rfl⟩ := h1 r s1 hr
    exact hr'
  · intro r' s1 hr
    obtain ⟨r, s2, hr', e, rfl⟩ := h2 r' s1 hr
    exact ⟨r, hr', e⟩

/-- A solver that skips one token, for any symbols, and counts its calls. -/
def skipOneRen (T : Type) : Solver Nat Unit T where
  fixFailedProduction _ pos _ := fun s => .ok (some ⟨pos + 1, .mk []⟩, s + 1)
  fixFailedProductions _ pos _ := fun s => .ok (some ⟨pos + 1, .mk []⟩, s + 1)

/-- The hypotheses of C52 are met by the renaming of numbers to strings of that length, with this
solver; `S → C B`, `C → a`, `B → b` on `a c` gives `Fix` for both. -/
example : ∃ (g : Grammar Nat) (g' : Grammar (List Unit)) (p : Parser Nat Unit Nat)
      (p' : Parser Nat Unit (List Unit)),
    Function.Injective (fun n : Nat => List.replicate n ()) ∧
    SolversRenamed (fun n : Nat => List.replicate n ()) (some (skipOneRen Nat))
      (some (skipOneRen (List Unit))) ∧
    Grammar.new (HashOrder.id Nat) 0 1 [⟨1, [2, 3]⟩, ⟨2, [4]⟩, ⟨3, [5]⟩] = .ok g ∧
    Grammar.new (HashOrder.rev (List Unit)) (List.replicate 0 ()) (List.replicate 1 ())
      (([⟨1, [2, 3]⟩, ⟨2, [4]⟩, ⟨3, [5]⟩] : List (Production Nat)).map
        (renProduction fun n : Nat => List.replicate n ())) = .ok g' ∧
    Built (HashOrder.id Nat) g (some (skipOneRen Nat)) p ∧
    Built (HashOrder.rev (List Unit)) g' (some (skipOneRen (List Unit))) p' ∧
    Parses p [⟨none, 4⟩, ⟨none, 6⟩] 0
      (.fix (.mk (.mk [.ok (.mk [.mk [] ⟨none, 4⟩] ⟨none, 2⟩), .fixed (.mk (.mk []) 3)]) 1)) 1 :=
  ⟨_, _, _, _, fun a b e => by simpa using congrArg List.length e,
    .some _ _ ⟨fun _ _ _ _ => rfl, fun _ _ _ _ => rfl⟩, rfl, rfl,
    Parser.built_of_eval_solver (n := 10) rfl, Parser.built_of_eval_solver (n := 10) rfl,
    Parser.parse_returns (n := 20) rfl⟩

/-- Injectivity is needed: `S → a | b c` parses `b c` as a whole; with `b` renamed to `a`, only the
first token is taken. -/
theorem C52_injective_needed : ∃ (f : Nat → Nat) (g g' : Grammar Nat) (p p' : Parser Unit Unit Nat)
      (r r' : ParseResult Unit Nat),
    Grammar.new (HashOrder.id Nat) 0 1 [⟨1, [10]⟩, ⟨1, [11, 12]⟩] = .ok g ∧
    Grammar.new (HashOrder.id Nat) (f 0) (f 1)
      (([⟨1, [10]⟩, ⟨1, [11, 12]⟩] : List (Production Nat)).map (renProduction f)) = .ok g' ∧
    Built (HashOrder.id Nat) g none p ∧ Built (HashOrder.id Nat) g' none p' ∧
    Parses p [⟨none, 11⟩, ⟨none, 12⟩] () r () ∧
    Parses p' (([⟨none, 11⟩, ⟨none, 12⟩] : List (Token Unit Nat)).map (renToken f)) () r' () ∧
    r' ≠ renResult f r :=
  ⟨fun x => if x = 11 then 10 else x, _, _, _, _, _, _, rfl, rfl, Parser.built_of_eval (n := 10) rfl,
    Parser.built_of_eval (n := 10) rfl, Parser.parse_returns (n := 20) rfl,
    Parser.parse_returns (n := 20) rfl, by
      simp [renResult, renNode, renNodes, Parser.toParseResult]⟩

end Verif.Props
