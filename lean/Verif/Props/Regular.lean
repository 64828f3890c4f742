import Verif.Proof.Regular
import Verif.Props.LL1Grammar
import Verif.Props.Augment
import Mathlib.Data.Fintype.Basic

/-!
# Property C103: every regular language
-/

namespace Verif.Props

open Verif.Spec Verif.Examples

variable {σ L Q α : Type} [DecidableEq Q] [DecidableEq α]

private theorem map_letter_inj {α Q : Type} {u v : List α}
    (h : u.map (RegSym.letter (Q := Q)) = v.map RegSym.letter) : u = v :=
  List.map_injective_iff.2 (fun _ _ e => RegSym.letter.inj e) h

section
variable {states : List Q} {letters : List α} (hs : ∀ q, q ∈ states) (hsn : states.Nodup)
  (hl : ∀ a, a ∈ letters) (hln : letters.Nodup) (hne : letters ≠ [])
  (step : Q → α → Q) (accept : Q → Bool) (q0 : Q) (h : HashOrder (RegSym Q α))

include hs hsn hl hln hne

/-- **C103.** The right-linear grammar of a finite automaton, with an end marker, is accepted by `Grammar::new`; no
parser for it has a conflict; and the parser without solver, on a word over the letters followed by the end
marker, returns `Ok` if the automaton accepts the word, and `Err` if not. -/
theorem C103_automaton :
    ∃ g, Grammar.new h .eps .start (augment (.state q0) .start .stop (regular states letters step accept)) = .ok g ∧
      ∀ p : Parser σ L (RegSym Q α), Built h g none p → ConflictFree p.transitions ∧
        ∀ tokens : List (Token L (RegSym Q α)), (∀ t ∈ tokens, t.tType ≠ .stop) → ∀ lex s,
          ((∃ w : List α, tokens.map (·.tType) = w.map .letter ∧ accept (w.foldl step q0) = true) → ∃ n,
            Parses p (tokens ++ [⟨lex, .stop⟩]) s (.ok ⟨.mk [n, .mk [] ⟨lex, .stop⟩] ⟨none, .start⟩⟩) s) ∧
          ((¬ ∃ w : List α, tokens.map (·.tType) = w.map .letter ∧ accept (w.foldl step q0) = true) → ∃ f s',
            Parses p (tokens ++ [⟨lex, .stop⟩]) s (.err f) s') := by
  have hinit : IsNonTerminal (regular states letters step accept) (.state q0) := by
    obtain ⟨a, ha⟩ := List.exists_mem_of_ne_nil _ hne
    exact ⟨_, Regular.mem_iff.2 ⟨q0, hs q0, .inl ⟨a, ha, rfl⟩⟩, rfl⟩
  have hf := Regular.fresh (states := states) (letters := letters) (step := step) (accept := accept)
  obtain ⟨g0, hg0⟩ := (Grammar.new_eq_ok_iff h .eps (.state q0) _).2
    (Regular.wellFormed (states := states) (letters := letters) (step := step) (accept := accept))
  obtain ⟨g, hg⟩ := (C88_end_marked h h .eps (.state q0) .start .stop _ hf hinit g0 hg0).1
  refine ⟨g, hg, fun p hp => ?_⟩
  have hadj := (hf.noAdjacentRepeat hinit).2 Regular.noAdjacentRepeat
  have hcf : ConflictFree p.transitions :=
    (C43_conflictFree_iff_ll1 h .eps .start _ g hg none p hp hadj Regular.marked_leadAlone).2
      (Regular.marked_ll1 hsn hln hadj)
  refine ⟨hcf, fun tokens hns lex s => ?_⟩
  obtain ⟨h1, h2⟩ := C88_decides h h .eps (.state q0) .start .stop _ hf hinit g0 hg0 g hg p hp hcf
    Regular.noAdjacentRepeat tokens hns lex s Regular.notLeftRecursive
  rw [sentence_iff_expands hinit, Regular.expands_iff hs hl hne] at h1 h2
  refine ⟨fun ha => ?_, h2⟩
  obtain ⟨n, -, hn⟩ := h1 ha
  exact ⟨n, hn⟩

end

/-- **C103**, for Mathlib's automata. -/
theorem C103_dfa [Fintype α] [Nonempty α] {Q : Type} [Fintype Q] [DecidableEq Q] (M : DFA α Q)
    [DecidablePred (· ∈ M.accept)] (h : HashOrder (RegSym Q α)) :
    ∃ g, Grammar.new h .eps .start (augment (.state M.start) .start .stop
        (regular Finset.univ.toList Finset.univ.toList M.step (fun q => decide (q ∈ M.accept)))) = .ok g ∧
      (∃ p : Parser σ L (RegSym Q α), Built h g none p) ∧
        ∀ p : Parser σ L (RegSym Q α), Built h g none p → ConflictFree p.transitions ∧ ∀ (w : List α) (s : σ),
          (w ∈ M.accepts → ∃ t, Parses p ((w.map RegSym.letter ++ [RegSym.stop]).map (Token.mk none)) s (.ok t) s) ∧
          (w ∉ M.accepts → ∃ f s', Parses p ((w.map RegSym.letter ++ [RegSym.stop]).map (Token.mk none)) s (.err f) s') := by
  have hne : (Finset.univ : Finset α).toList ≠ [] := by
    intro e
    have : Classical.arbitrary α ∈ (Finset.univ : Finset α).toList := by simp
    rw [e] at this
    simp at this
  obtain ⟨g, hg, hall⟩ := C103_automaton (σ := σ) (L := L) (states := (Finset.univ : Finset Q).toList)
    (letters := (Finset.univ : Finset α).toList) (by simp) (Finset.nodup_toList _) (by simp) (Finset.nodup_toList _)
    hne M.step (fun q => decide (q ∈ M.accept)) M.start h
  refine ⟨g, hg, Parser.built_exists hg none, fun p hp => ?_⟩
  obtain ⟨hcf, hdec⟩ := hall p hp
  refine ⟨hcf, fun w s => ?_⟩
  obtain ⟨h1, h2⟩ := hdec (w.map fun a => ⟨none, .letter a⟩) (by simp) none s
  have e : ((w.map RegSym.letter ++ [RegSym.stop]).map (Token.mk none) : List (Token L (RegSym Q α))) =
      (w.map fun a => ⟨none, .letter a⟩) ++ [⟨none, .stop⟩] := by simp [Function.comp_def]
  rw [e]
  have hiff : (∃ v : List α, (w.map fun a => (⟨none, .letter a⟩ : Token L (RegSym Q α))).map (·.tType) =
      v.map .letter ∧ decide (v.foldl M.step M.start ∈ M.accept) = true) ↔ w ∈ M.accepts := by
    rw [DFA.mem_accepts]
    constructor
    · rintro ⟨v, e, hv⟩
      rw [List.map_map] at e
      have : w = v := map_letter_inj e
      subst this
      exact of_decide_eq_true hv
    · exact fun hw => ⟨w, by simp, decide_eq_true hw⟩
  rw [hiff] at h1 h2
  exact ⟨fun hw => let ⟨_, hn⟩ := h1 hw; ⟨_, hn⟩, h2⟩

/-- **C103**, for languages. For every regular language over a finite alphabet there is a grammar that
`Grammar::new` accepts and that has a parser without solver; and every such parser, for any hash order, has no conflict
in its table, returns `Ok` for the words of the language with the end marker behind them, and `Err` for all other words
with the end marker behind them. -/
theorem C103_regular [Fintype α] [Nonempty α] (lang : Language α) (hreg : lang.IsRegular) :
    ∃ (Q : Type) (_ : DecidableEq Q) (ps : List (Production (RegSym Q α))), ∀ h : HashOrder (RegSym Q α),
      ∃ g, Grammar.new h .eps .start ps = .ok g ∧ (∃ p : Parser σ L (RegSym Q α), Built h g none p) ∧
        ∀ p : Parser σ L (RegSym Q α), Built h g none p → ConflictFree p.transitions ∧ ∀ (w : List α) (s : σ),
          (w ∈ lang → ∃ t, Parses p ((w.map RegSym.letter ++ [RegSym.stop]).map (Token.mk none)) s (.ok t) s) ∧
          (w ∉ lang → ∃ f s', Parses p ((w.map RegSym.letter ++ [RegSym.stop]).map (Token.mk none)) s (.err f) s') := by
  classical
  obtain ⟨Q, _, M, rfl⟩ := hreg
  exact ⟨Q, inferInstance, _, fun h => C103_dfa M h⟩

/-- The automaton that counts the letters `true` modulo 2 and accepts if the count is odd. -/
def oddPs : List (Production (RegSym Bool Bool)) := augment (.state false) .start .stop
  (regular [false, true] [false, true] (fun q a => q != a) id)

/-- Non-vacuity: the grammar of the automaton has a parser; `[true, false, true, true]` gives `Ok`,
`[true, true]` gives `Err`. -/
theorem C103_example : ∃ g p n f, Grammar.new (HashOrder.id (RegSym Bool Bool)) .eps .start oddPs = .ok g ∧
    Built (σ := Unit) (L := Unit) (HashOrder.id _) g none p ∧
    Parses p [⟨none, .letter true⟩, ⟨none, .letter false⟩, ⟨none, .letter true⟩, ⟨none, .letter true⟩, ⟨none, .stop⟩] ()
      (.ok ⟨.mk [n, .mk [] ⟨none, .stop⟩] ⟨none, .start⟩⟩) () ∧
    Parses p [⟨none, .letter true⟩, ⟨none, .letter true⟩, ⟨none, .stop⟩] () (.err f) () :=
  ⟨_, _, _, _, rfl, Parser.built_of_eval (n := 20) rfl, Parser.parse_returns (n := 60) rfl,
    Parser.parse_returns (n := 60) rfl⟩

end Verif.Props
