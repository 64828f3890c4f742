import Verif.Proof.RecursesAtEnd
import Verif.Props.Forked
import Verif.Props.Regular

/-!
# Property C106: grammars that recurse at the end only
-/

namespace Verif.Props

open Verif.Spec Verif.Examples

section
variable {σ L T : Type} [DecidableEq T]

/-- **C106**, the check. A grammar recurses at the end only iff there are ranks that show it. -/
theorem C106_ranks (h : HashOrder T) (eps init : T) (ps : List (Production T)) (g : Grammar T)
    (hg : Grammar.new h eps init ps = .ok g) : RecursesAtEnd eps ps ↔ ∃ rank, RankedAtEnd ps rank :=
  ⟨Verif.RecursesAtEnd.exists_rank (Grammar.grammarOf_of_new hg).wf, fun ⟨_, hr⟩ => Verif.RecursesAtEnd.of_rank hr⟩

/-- **C106**, for sentences. The sentences of a grammar that recurses at the end only are a regular language. -/
theorem C106_sentences (h : HashOrder T) (eps init : T) (ps : List (Production T)) (g : Grammar T)
    (hg : Grammar.new h eps init ps = .ok g) (hinit : IsNonTerminal ps init) (hre : RecursesAtEnd eps ps) :
    (sentences eps init ps).IsRegular := by
  obtain ⟨rank, hr⟩ := (C106_ranks h eps init ps g hg).1 hre
  refine Verif.RecursesAtEnd.regular_of (fun st w => ExpandsAll eps ps st w)
    (fun st => Verif.RecursesAtEnd.Fits ps rank init st) Verif.RecursesAtEnd.finite_fits
    (Verif.RecursesAtEnd.expands_step hr) [init] .start _ fun w => ?_
  rw [ExpandsAll.single, ← sentence_iff_expands hinit]
  rfl

/-- **C106**, for parsers. With a table without conflicts, from computed sets or sets of the user, the inputs for which a
parser of such a grammar returns `Ok` are a regular language. -/
theorem C106_accepted (h : HashOrder T) (eps init : T) (ps : List (Production T)) (g : Grammar T)
    (hg : Grammar.new h eps init ps = .ok g) (p : Parser σ L T) (hp : AnyParser h g p)
    (hcf : ConflictFree p.transitions) (hinit : IsNonTerminal ps init) (hre : RecursesAtEnd eps ps) (s : σ) :
    (accepted p s).IsRegular := by
  obtain ⟨rank, hr⟩ := (C106_ranks h eps init ps g hg).1 hre
  have hc : ∀ x a out, out ∈ candidates p.transitions x a → (⟨x, out⟩ : Production T) ∈ ps := by
    rw [candidates_eq]
    exact (hp.parserOf hg).cand
  refine Verif.RecursesAtEnd.regular_of (fun st w => Empties eps ps (candidates p.transitions) st w)
    (fun st => Verif.RecursesAtEnd.Fits ps rank init st) Verif.RecursesAtEnd.finite_fits
    (Verif.RecursesAtEnd.empties_step hr hc) [init] .start _ fun w => ?_
  have := C104_machine h eps init ps g hg p hp hcf hinit (w.map (Token.mk none)) s
  rw [List.map_map, show ((fun t : Token L T => t.tType) ∘ Token.mk none) = id from rfl, List.map_id] at this
  exact this

/-- **C106**: the condition is needed. There are sets of the user for a grammar that does not recurse at the end only,
whose table has no conflict, and the accepted inputs are not a regular language. -/
theorem C106_needed (h : HashOrder Nat) : ∃ (g : Grammar Nat) (p : Parser σ L Nat),
    Grammar.new h 0 1 suppliedPs = .ok g ∧ Parser.fromGrammarAndFirstFollowSymbols h g suppliedSets = .ok p ∧
    ConflictFree p.transitions ∧ ¬ RecursesAtEnd 0 suppliedPs ∧ ∀ s, ¬ (accepted p s).IsRegular := by
  obtain ⟨g, p, hg, hp, hcf, -, -, hF⟩ := C105_supplied_sets (σ := σ) (L := L) h
  have hacc : ∀ s w, 13 ∉ w → (w ++ [13] ∈ accepted p s ↔ Forked 10 11 12 13 (w ++ [13])) := by
    intro s w hw
    have := hF ((w ++ [13]).map (Token.mk none)) ⟨w.map (Token.mk none), ⟨none, 13⟩, by simp, rfl, by
      intro u hu
      obtain ⟨x, hx, rfl⟩ := List.mem_map.1 hu
      rintro rfl
      exact hw hx⟩ s
    rw [List.map_map, show ((fun t : Token L Nat => t.tType) ∘ Token.mk none) = id from rfl, List.map_id] at this
    exact this
  have hnot : ∀ s, ¬ (accepted p s).IsRegular := by
    intro s hreg
    have hfin := hreg.finite_range_leftQuotient
    refine Set.infinite_range_of_injective
      (f := fun n : Nat => (accepted p s).leftQuotient (List.replicate n 10)) ?_ (hfin.subset ?_)
    · intro m n e
      have h1 : List.replicate m 11 ++ [13] ∈ (accepted p s).leftQuotient (List.replicate m 10) := by
        show List.replicate m 10 ++ (List.replicate m 11 ++ [13]) ∈ accepted p s
        rw [← List.append_assoc, hacc s _ (by simp)]
        exact ⟨m, .inl rfl⟩
      have e' : (accepted p s).leftQuotient (List.replicate m 10) = (accepted p s).leftQuotient (List.replicate n 10) := e
      rw [e'] at h1
      replace h1 : List.replicate n 10 ++ (List.replicate m 11 ++ [13]) ∈ accepted p s := h1
      rw [← List.append_assoc, hacc s _ (by simp)] at h1
      obtain ⟨k, h1 | h1⟩ := h1
      · have c1 := congrArg (List.count 10) h1
        have c2 := congrArg (List.count 11) h1
        simp [List.count_replicate] at c1 c2
        omega
      · have c1 := congrArg (List.count 10) h1
        have c2 := congrArg (List.count 11) h1
        have c3 := congrArg (List.count 12) h1
        simp [List.count_replicate] at c1 c2 c3
        omega
    · rintro _ ⟨n, rfl⟩
      exact ⟨_, rfl⟩
  refine ⟨g, p, hg, hp, hcf, fun hre => hre 2 [10] 3 [] ⟨[10, 2, 3], ?_, .refl _⟩, hnot⟩
  exact Step.mk [] [] (⟨2, [10, 2, 3]⟩ : Production Nat) (by decide)

/-- `S → A $`, `A → B A | ε`, `B → a b | c`. -/
def atEndPs : List (Production Nat) := [⟨1, [2, 13]⟩, ⟨2, [3, 2]⟩, ⟨2, [0]⟩, ⟨3, [10, 11]⟩, ⟨3, [12]⟩]

/-- Non-vacuity: the grammar of lists of `a b` and `c` recurses, at the end only, has a parser without conflicts, and the
parser accepts `a b c $`. -/
theorem C106_example : ∃ g p t, Grammar.new (HashOrder.id Nat) 0 1 atEndPs = .ok g ∧
    Built (HashOrder.id Nat) g none (p : Parser Unit Unit Nat) ∧ ConflictFree p.transitions ∧ IsNonTerminal atEndPs 1 ∧
    RecursesAtEnd 0 atEndPs ∧ DerivesPlus 0 atEndPs [2] [3, 2] ∧
    Parses p [⟨none, 10⟩, ⟨none, 11⟩, ⟨none, 12⟩, ⟨none, 13⟩] () (.ok t) () := by
  obtain ⟨g, p, t, hg, hp, hr, hall⟩ : ∃ g p t,
      Grammar.new (HashOrder.id Nat) 0 1 atEndPs = .ok g ∧
      Built (HashOrder.id Nat) g none (p : Parser Unit Unit Nat) ∧
      Parses p [⟨none, 10⟩, ⟨none, 11⟩, ⟨none, 12⟩, ⟨none, 13⟩] () (.ok t) () ∧
      (∀ x ∈ atEndPs.map (·.input), ∀ a ∈ atEndPs.flatMap (·.output),
        ((p.transitions.getProductions x a).getD []).length ≤ 1) :=
    ⟨_, _, _, rfl, Parser.built_of_eval (n := 12) rfl, Parser.parse_returns (n := 60) rfl, by decide⟩
  refine ⟨g, p, t, hg, hp, conflictFree_of_check hg hp hall, ⟨⟨1, [2, 13]⟩, by decide, rfl⟩,
    Verif.RecursesAtEnd.of_rank (rank := fun x => if x = 1 then 2 else if x = 2 then 1 else 0) ?_,
    ⟨[3, 2], Step.mk [] [] (⟨2, [3, 2]⟩ : Production Nat) (by decide), .refl _⟩, hr⟩
  have hnt : ∀ y, IsNonTerminal atEndPs y → y ∈ [1, 2, 3] := by
    rintro y ⟨q, hq, rfl⟩
    revert q
    decide
  have hch : ∀ q ∈ atEndPs, ∀ n, n < q.output.length → ∀ y ∈ q.output[n]?, y ∈ [1, 2, 3] →
      (if y = 1 then 2 else if y = 2 then 1 else 0) < (if q.input = 1 then 2 else if q.input = 2 then 1 else 0) ∨
      n + 1 = q.output.length ∧
        (if y = 1 then 2 else if y = 2 then 1 else 0) ≤ (if q.input = 1 then 2 else if q.input = 2 then 1 else 0) := by
    decide
  intro q hq u y v e hy
  rcases hch q hq u.length (by rw [e]; simp) y (by rw [e]; simp) (hnt y hy) with h1 | ⟨h1, h2⟩
  · exact .inl h1
  · refine .inr ⟨?_, h2⟩
    rw [e] at h1
    simp only [List.length_append, List.length_cons] at h1
    exact List.length_eq_zero_iff.1 (by omega)

end

section
variable {σ L Q α : Type} [DecidableEq Q] [DecidableEq α]

/-- **C106**, with C103: exactly the regular languages. A language over a finite alphabet is regular iff some grammar
that `Grammar::new` accepts and that recurses at the end only has a parser without conflicts that returns `Ok` exactly
for the words of the language, with the end marker behind them. -/
theorem C106_exactly [Fintype α] [Nonempty α] [Inhabited σ] (lang : Language α) : lang.IsRegular ↔
    ∃ (Q : Type) (_ : DecidableEq Q) (ps : List (Production (RegSym Q α))), RecursesAtEnd .eps ps ∧
      IsNonTerminal ps .start ∧ ∀ h : HashOrder (RegSym Q α), ∃ (g : Grammar (RegSym Q α)) (p : Parser σ L (RegSym Q α)),
        Grammar.new h .eps .start ps = .ok g ∧ Built h g none p ∧ ConflictFree p.transitions ∧
        ∀ (w : List α) (s : σ), w ∈ lang ↔
          ∃ t s', Parses p ((w.map RegSym.letter ++ [RegSym.stop]).map (Token.mk none)) s (.ok t) s' := by
  classical
  constructor
  · rintro ⟨Q, _, M, rfl⟩
    refine ⟨Q, inferInstance, augment (.state M.start) .start .stop
      (regular Finset.univ.toList Finset.univ.toList M.step (fun q => decide (q ∈ M.accept))), ?_, ?_, fun h => ?_⟩
    · refine Verif.RecursesAtEnd.of_rank (rank := fun x => if x = .start then 1 else 0) ?_
      intro q hq u y v e hy
      rcases List.mem_cons.1 hq with rfl | hq
      · left
        have hym : y ∈ [(.state M.start : RegSym Q α), .stop] := by
          rw [show [(.state M.start : RegSym Q α), .stop] = u ++ y :: v from e]; simp
        have : y ≠ .start := by
          rintro rfl
          simp at hym
        simp [this]
      · right
        rcases Regular.mem_iff.1 hq with ⟨q1, -, ⟨a, -, rfl⟩ | ⟨-, rfl⟩⟩
        · cases u with
          | nil =>
            simp only [List.nil_append, List.cons.injEq] at e
            obtain ⟨rfl, -⟩ := e
            exfalso
            obtain ⟨r, hr, e⟩ := hy
            rcases List.mem_cons.1 hr with rfl | hr
            · simp at e
            · rcases Regular.mem_iff.1 hr with ⟨q2, -, ⟨a2, -, rfl⟩ | ⟨-, rfl⟩⟩ <;> simp at e
          | cons u0 u =>
            cases u with
            | nil =>
              simp only [List.cons_append, List.nil_append, List.cons.injEq] at e
              obtain ⟨-, rfl, rfl⟩ := e
              simp
            | cons u1 u => simp at e
        · cases u with
          | nil =>
            simp only [List.nil_append, List.cons.injEq] at e
            obtain ⟨rfl, rfl⟩ := e
            simp
          | cons u0 u => simp at e
    · exact ⟨_, List.mem_cons_self, rfl⟩
    · obtain ⟨g, hg, ⟨p, hp⟩, hall⟩ := C103_dfa (σ := σ) (L := L) M h
      obtain ⟨hcf, hdec⟩ := hall p hp
      refine ⟨g, p, hg, hp, hcf, fun w s => ⟨fun hw => ?_, fun ⟨t, s', hr⟩ => ?_⟩⟩
      · obtain ⟨t, ht⟩ := (hdec w s).1 hw
        exact ⟨t, s, ht⟩
      · by_contra hw
        obtain ⟨f, s2, hr'⟩ := (hdec w s).2 hw
        have := (Parser.Parses.det hr hr').1
        simp at this
  · rintro ⟨Q, _, ps, hre, hinit, hall⟩
    obtain ⟨g, p, hg, hp, hcf, hdec⟩ := hall (HashOrder.id _)
    obtain ⟨R, _, M, hM⟩ := C106_accepted (HashOrder.id _) .eps .start ps g hg p (.inl ⟨none, hp⟩) hcf hinit hre default
    refine ⟨R, inferInstance, ⟨fun r a => M.step r (.letter a), M.start, {r | M.step r .stop ∈ M.accept}⟩, ?_⟩
    ext w
    rw [hdec w default, DFA.mem_accepts]
    have h1 : w.map RegSym.letter ++ [RegSym.stop] ∈ accepted p default ↔
        ∃ t s', Parses p ((w.map RegSym.letter ++ [RegSym.stop]).map (Token.mk none)) default (.ok t) s' := Iff.rfl
    rw [← h1, ← hM, DFA.mem_accepts]
    simp [DFA.eval, DFA.evalFrom, List.foldl_map]

end

end Verif.Props
