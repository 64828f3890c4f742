import Verif.Spec.Stream
import Verif.Props.LL1
import Verif.Props.Local

/-!
# Property C91: reading one sentence after the other
-/

set_option linter.unusedSectionVars false

namespace Verif.Props

open Verif.Spec Verif.Examples

variable {σ L T : Type} [DecidableEq T]

variable (h : HashOrder T) (eps init : T) (ps : List (Production T)) (g : Grammar T)
  (hg : Grammar.new h eps init ps = .ok g) (p : Parser σ L T) (hp : Built h g none p)
  (e : T) (hem : EndMarked eps init e ps) (s : σ)
include hg hp hem

/-- **C91**, what is read is right: let the tokens be made of pieces, each of which ends with the end marker, the
first in it. Whatever the table, the trees read are parse trees of the pieces, one after the other, and what is left
are the other pieces. -/
theorem C91_sound (pieces : List (List (Token L T))) (hpc : ∀ c ∈ pieces, EndsWith e c)
    (rest rest' : List (Token L T)) (trees : List (Tree L T)) (hlen : trees.length ≤ pieces.length)
    (hr : Reads eps p s (pieces.flatten ++ rest) trees rest') :
    rest' = (pieces.drop trees.length).flatten ++ rest ∧
    List.Forall₂ (fun c t => IsTree eps ps init c t.root) (pieces.take trees.length) trees := by
  induction trees generalizing pieces with
  | nil =>
    cases hr
    exact ⟨rfl, by simp⟩
  | cons tree trees ih =>
    cases hr with
    | next h1 h2 =>
      cases pieces with
      | nil => simp at hlen
      | cons c cs =>
        have hc : EndsWith e c := hpc c (by simp)
        rw [List.flatten_cons, List.append_assoc] at h1 h2
        have h3 := ((C51_nothing_behind_end_marker h eps init ps g hg p hp e hem c (cs.flatten ++ rest) hc s).1
          _ _).1 h1
        obtain ⟨hl, ht⟩ := C17_whole_input_partial h eps init ps g hg none p hp e hem c hc s s tree h3
        rw [hl, List.drop_left] at h2
        obtain ⟨h4, h5⟩ := ih cs (fun c hc => hpc c (by simp [hc])) (by simpa using hlen) h2
        exact ⟨by simpa using h4, by simpa using ⟨ht, h5⟩⟩

/-- **C91**, everything is read: if the table has no conflicts, the grammar is not left-recursive and has no two
equal non-terminals side by side, then sentences written one after the other are read one after the other, each with
its parse tree, whatever tokens come behind them. If these begin with a piece that ends with the end marker and is
not a sentence, the next parse returns Err, with the report for that piece alone. -/
theorem C91_complete (hcf : ConflictFree p.transitions) (hadj : NoAdjacentRepeat ps)
    (hnlr : NotLeftRecursive eps ps) (pieces : List (List (Token L T))) (hpc : ∀ c ∈ pieces, EndsWith e c)
    (hsen : ∀ c ∈ pieces, Sentence eps init ps (c.map (·.tType))) (rest : List (Token L T)) :
    (∃ trees, Reads eps p s (pieces.flatten ++ rest) trees rest ∧
      List.Forall₂ (fun c t => IsTree eps ps init c t.root) pieces trees) ∧
    ∀ bad more, rest = bad ++ more → EndsWith e bad → ¬ Sentence eps init ps (bad.map (·.tType)) →
      ∃ f, Parses p rest s (.err f) s ∧ Parses p bad s (.err f) s := by
  constructor
  · induction pieces with
    | nil => exact ⟨[], .stop _, .nil⟩
    | cons c cs ih =>
      have hc : EndsWith e c := hpc c (by simp)
      obtain ⟨trees, h1, h2⟩ := ih (fun c hc => hpc c (by simp [hc])) (fun c hc => hsen c (by simp [hc]))
      obtain ⟨tree, h3, h4⟩ := (C22_decides h eps init ps g hg p hp hcf hadj hnlr e hem c hc s).1
        (hsen c (by simp))
      obtain ⟨hl, -⟩ := C17_whole_input_partial h eps init ps g hg none p hp e hem c hc s s tree h3
      refine ⟨tree :: trees, .next ?_ ?_, .cons h4 h2⟩
      · rw [List.flatten_cons, List.append_assoc]
        exact ((C51_nothing_behind_end_marker h eps init ps g hg p hp e hem c _ hc s).1 _ _).2 h3
      · rw [List.flatten_cons, List.append_assoc, hl, List.drop_left]
        exact h1
  · rintro bad more rfl hb hns
    obtain ⟨f, s', hf⟩ := (C22_decides h eps init ps g hg p hp hcf hadj hnlr e hem bad hb s).2 hns
    have P := Parser.tableParser_of_built hg hp
    obtain rfl := state_of_none P.1.toParserOf P.2 hf
    exact ⟨f, ((C51_nothing_behind_end_marker h eps init ps g hg p hp e hem bad more hb _).1 _ _).2 hf, hf⟩

/-- The hypotheses of C91 are met by the expression grammar: two sentences and something else. -/
example : ∃ g p t1 t2 f, Grammar.new (HashOrder.id Nat) 0 1 exprPs = .ok g ∧
    Built (σ := Unit) (L := Unit) (HashOrder.id Nat) g none p ∧ ConflictFree p.transitions ∧
    NoAdjacentRepeat exprPs ∧ NotLeftRecursive 0 exprPs ∧ EndMarked 0 1 16 exprPs ∧
    EndsWith 16 ([⟨none, 15⟩, ⟨none, 16⟩] : List (Token Unit Nat)) ∧
    EndsWith 16 ([⟨none, 15⟩, ⟨none, 12⟩, ⟨none, 15⟩, ⟨none, 16⟩] : List (Token Unit Nat)) ∧
    Reads 0 p () [⟨none, 15⟩, ⟨none, 16⟩, ⟨none, 15⟩, ⟨none, 12⟩, ⟨none, 15⟩, ⟨none, 16⟩, ⟨none, 12⟩, ⟨none, 16⟩]
      [t1, t2] [⟨none, 12⟩, ⟨none, 16⟩] ∧
    Parses p [⟨none, 12⟩, ⟨none, 16⟩] () (.err f) () := by
  obtain ⟨g, p, t1, t2, f, hg, hp, h1, h2, h3, h4, h5⟩ : ∃ g p t1 t2 f,
      Grammar.new (HashOrder.id Nat) 0 1 exprPs = .ok g ∧
      Built (σ := Unit) (L := Unit) (HashOrder.id Nat) g none p ∧
      Parses p [⟨none, 15⟩, ⟨none, 16⟩, ⟨none, 15⟩, ⟨none, 12⟩, ⟨none, 15⟩, ⟨none, 16⟩, ⟨none, 12⟩, ⟨none, 16⟩] ()
        (.ok t1) () ∧ (leaves 0 t1.root).length = 2 ∧
      Parses p [⟨none, 15⟩, ⟨none, 12⟩, ⟨none, 15⟩, ⟨none, 16⟩, ⟨none, 12⟩, ⟨none, 16⟩] () (.ok t2) () ∧
      (leaves 0 t2.root).length = 4 ∧ Parses p [⟨none, 12⟩, ⟨none, 16⟩] () (.err f) () :=
    ⟨_, _, _, _, _, rfl, Parser.built_of_eval (n := 10) rfl, Parser.parse_returns (n := 30) rfl, rfl,
      Parser.parse_returns (n := 30) rfl, rfl, Parser.parse_returns (n := 30) rfl⟩
  refine ⟨g, p, t1, t2, f, hg, hp, exprPs_conflictFree p _ g hg none hp, exprPs_noAdjacentRepeat,
    exprPs_notLeftRecursive, exprPs_endMarked, ⟨[⟨none, 15⟩], ⟨none, 16⟩, rfl, rfl, by simp⟩,
    ⟨[⟨none, 15⟩, ⟨none, 12⟩, ⟨none, 15⟩], ⟨none, 16⟩, rfl, rfl, by simp⟩, .next h1 ?_, h5⟩
  rw [h2]
  refine .next h3 ?_
  rw [h4]
  exact .stop _

end Verif.Props
