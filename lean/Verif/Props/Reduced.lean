import Verif.Proof.Reduced
import Verif.Props.LL1Grammar
import Verif.Props.Termination

/-!
# Property C49: grammars without useless symbols
-/

set_option linter.unusedSectionVars false

namespace Verif.Props

open Verif.Spec Verif.Examples

variable {σ L T : Type} [DecidableEq T]

/-- Forms derived from the initial symbol of an end-marked grammar. -/
theorem endMarked_forms {eps init e : T} {ps : List (Production T)} (hem : EndMarked eps init e ps)
    {u w : List T} (h : Derives eps ps u w)
    (hu : u = [init] ∨ (IsNonTerminal ps init ∧ init ∉ u ∧ ∃ z, u = z ++ [e])) :
    w = [init] ∨ (IsNonTerminal ps init ∧ init ∉ w ∧ ∃ z, w = z ++ [e]) := by
  induction h with
  | refl => exact hu
  | step s _ ih =>
    refine ih (.inr ?_)
    cases s with
    | mk a b q hq =>
      have hrhs : init ∉ rhs eps q := by
        unfold rhs
        split
        · simp
        · exact hem.initial_once q hq
      rcases hu with hu | ⟨h1, h2, z, hz⟩
      · have : a = [] ∧ q.input = init ∧ b = [] := by
          cases a with
          | nil => simpa using hu
          | cons _ a => simp at hu
        obtain ⟨rfl, hqi, rfl⟩ := this
        refine ⟨⟨q, hq, hqi⟩, by simpa using hrhs, ?_⟩
        obtain ⟨v, hv, _⟩ := hem.initial_ends q hq hqi
        refine ⟨v, ?_⟩
        have hne : q.output ≠ [eps] := by
          intro h
          rw [hv] at h
          cases v with
          | nil => simp at h; exact hem.ne_eps h
          | cons _ _ => simp at h
        rw [rhs, if_neg hne]
        simpa using hv
      · have hqi : q.input ≠ e := fun h => hem.terminal ⟨q, hq, h⟩
        simp only [List.mem_append, List.mem_cons, not_or] at h2
        refine ⟨h1, ?_, ?_⟩
        · simp only [List.mem_append, not_or]
          exact ⟨⟨h2.1, hrhs⟩, h2.2.2⟩
        · rcases List.eq_nil_or_concat b with rfl | ⟨b', y, rfl⟩
          · exfalso
            have := congrArg List.getLast? hz
            simp at this
            exact hqi this
          · have : y = e := by
              have e1 : a ++ q.input :: (b' ++ [y]) = (a ++ q.input :: b') ++ [y] := by simp
              rw [List.concat_eq_append, e1] at hz
              exact (List.append_inj' hz rfl).2 |> fun h => by simpa using h
            subst this
            exact ⟨a ++ rhs eps q ++ b', by simp⟩

/-- **C49.** An end-marked LL(1) grammar without useless symbols is not left-recursive. -/
theorem C49_ll1_not_left_recursive (h : HashOrder T) (eps init : T) (ps : List (Production T))
    (g : Grammar T) (hg : Grammar.new h eps init ps = .ok g) (hll : IsLL1 eps ps) (e : T)
    (hem : EndMarked eps init e ps) (hred : Reduced eps init ps) : NotLeftRecursive eps ps := by
  have hw := (Grammar.grammarOf_of_new hg).wf
  have hprod := fun x hx => (hred x hx).2
  refine notLeftRecursive_of_ll1 hw hll hprod ?_
  rintro x v ⟨b, hs, hb⟩
  obtain ⟨q, hq, hqx, hbq⟩ := hs.single
  have hxnt : IsNonTerminal ps x := ⟨q, hq, hqx⟩
  obtain ⟨u, w, hd⟩ := (hred x hxnt).1
  rcases endMarked_forms hem hd (.inl rfl) with h1 | ⟨h1, h2, z, hz⟩
  · exfalso
    have hxi : x = init := by
      cases u with
      | nil => simp at h1; exact h1.1
      | cons _ u => simp at h1
    subst hxi
    rcases endMarked_forms hem (.step hs hb) (.inl rfl) with h1 | ⟨_, h2, _⟩
    · have hb' : x ∉ b ∧ ∃ z, b = z ++ [e] := by
        rcases endMarked_forms hem (.of_step hs) (.inl rfl) with h3 | ⟨_, h3, h4⟩
        · exfalso
          have : x ∈ rhs eps q := by rw [← hbq, h3]; simp
          unfold rhs at this
          split at this
          · simp at this
          · exact hem.initial_once q hq this
        · exact ⟨h3, h4⟩
      rcases endMarked_forms hem hb (.inr ⟨hxnt, hb'⟩) with h3 | ⟨_, h3, _⟩
      · -- the end marker stays
        obtain ⟨_, z, rfl⟩ := hb'
        obtain ⟨c1, c2, hc, _, hc2⟩ := hb.append_split
        rw [hc2.terminal_eq hem.terminal] at hc
        have := congrArg List.getLast? (hc.symm.trans h1)
        simp at this
        exact hem.terminal (this ▸ hxnt)
      · exact h3 (by simp)
    · exact h2 (by simp)
  · rcases List.eq_nil_or_concat w with rfl | ⟨w', y, rfl⟩
    · exfalso
      have := congrArg List.getLast? hz
      simp at this
      exact hem.terminal (this ▸ hxnt)
    · have : y = e := by
        have e1 : u ++ x :: (w' ++ [y]) = (u ++ x :: w') ++ [y] := by simp
        rw [List.concat_eq_append, e1] at hz
        exact (List.append_inj' hz rfl).2 |> fun h => by simpa using h
      subst this
      have hsym : ∀ s ∈ w' ++ [y], ¬ IsNonTerminal ps s → IsTerminal ps s ∧ s ≠ eps := by
        intro s hs hnt
        rcases hd.symbols hw s (by simp at hs ⊢; tauto) with h' | ⟨h', r', hr', hy'⟩
        · simp only [List.mem_singleton] at h'
          exact absurd (h' ▸ h1) hnt
        · exact ⟨⟨⟨r', hr', hy'⟩, hnt⟩, h'⟩
      obtain ⟨t, ht, htt⟩ := derives_terminals (l := w' ++ [y]) hprod hsym
      cases t with
      | nil =>
        exfalso
        obtain ⟨c1, c2, hc, _, hc2⟩ := ht.append_split
        rw [hc2.terminal_eq hem.terminal] at hc
        simp at hc
      | cons a t =>
        obtain ⟨ha, hae⟩ := htt a (by simp)
        refine .inl ⟨a, ha, hae, init, u, t, h1, hd.trans ?_⟩
        have := ht.context (u ++ [x]) []
        simpa using this

/-- **C49**, termination: if the table of an end-marked grammar without useless symbols has no conflicts
(and no output has two equal adjacent non-terminals), then `parse_from_tokens` ends on every input. The
condition on left recursion of C19 need not be checked. -/
theorem C49_terminates (h : HashOrder T) (eps init : T) (ps : List (Production T))
    (g : Grammar T) (hg : Grammar.new h eps init ps = .ok g) (solver : Option (Solver σ L T))
    (p : Parser σ L T) (hp : Built h g solver p) (hcf : ConflictFree p.transitions)
    (hadj : NoAdjacentRepeat ps) (e : T) (hem : EndMarked eps init e ps)
    (hred : Reduced eps init ps) (tokens : List (Token L T)) (hterm : SolverTerminates solver)
    (hprog : SolverProgress solver tokens) (s : σ) :
    (∃ r s', Parses p tokens s r s') ∨ ParsePanics p tokens s :=
  C19_terminates h eps init ps g hg solver p hp
    (C49_ll1_not_left_recursive h eps init ps g hg
      (C43_ll1_of_conflictFree h eps init ps g hg solver p hp hadj hcf) e hem hred)
    tokens hterm hprog s

/-- **C49**, decision: C22 without a hypothesis on left recursion. -/
theorem C49_decides (h : HashOrder T) (eps init : T) (ps : List (Production T))
    (g : Grammar T) (hg : Grammar.new h eps init ps = .ok g) (p : Parser σ L T)
    (hp : Built h g none p) (hcf : ConflictFree p.transitions) (hadj : NoAdjacentRepeat ps)
    (e : T) (hem : EndMarked eps init e ps) (hred : Reduced eps init ps)
    (tokens : List (Token L T)) (hin : EndsWith e tokens) (s : σ) :
    (Sentence eps init ps (tokens.map (·.tType)) →
      ∃ tree, Parses p tokens s (.ok tree) s ∧ IsTree eps ps init tokens tree.root) ∧
    (¬ Sentence eps init ps (tokens.map (·.tType)) → ∃ f s', Parses p tokens s (.err f) s') :=
  C22_decides h eps init ps g hg p hp hcf hadj
    (C49_ll1_not_left_recursive h eps init ps g hg
      (C43_ll1_of_conflictFree h eps init ps g hg none p hp hadj hcf) e hem hred)
    e hem tokens hin s

/-! ## The hypotheses can be met, and are needed -/

theorem exprPs_reduced : Reduced 0 1 exprPs := by
  have d1 : Derives 0 exprPs [1] [2, 16] := .of_production (p := ⟨1, [2, 16]⟩) (by decide)
  have d2 : Derives 0 exprPs [2] [4, 3] := .of_production (p := ⟨2, [4, 3]⟩) (by decide)
  have d3 : Derives 0 exprPs [3] [] := .of_production (p := ⟨3, [0]⟩) (by decide)
  have d4 : Derives 0 exprPs [4] [6, 5] := .of_production (p := ⟨4, [6, 5]⟩) (by decide)
  have d5 : Derives 0 exprPs [5] [] := .of_production (p := ⟨5, [0]⟩) (by decide)
  have d6 : Derives 0 exprPs [6] [15] := .of_production (p := ⟨6, [15]⟩) (by decide)
  have e4 : Derives 0 exprPs [4] [15] := d4.trans (Derives.append (a := [6]) d6 d5)
  have e2 : Derives 0 exprPs [2] [15] := d2.trans (Derives.append (a := [4]) e4 d3)
  have e1 : Derives 0 exprPs [1] [15, 16] := d1.trans (Derives.append (a := [2]) e2 (.refl [16]))
  have r1 : Derives 0 exprPs [1] [4, 3, 16] := d1.trans (Derives.append (a := [2]) d2 (.refl [16]))
  have r2 : Derives 0 exprPs [1] [6, 5, 3, 16] := r1.trans (Derives.append (a := [4]) d4 (.refl [3, 16]))
  have ht : ∀ a ∈ [15, 16], IsTerminal exprPs a ∧ a ≠ 0 := by
    intro a ha
    have : (∃ p ∈ exprPs, a ∈ p.output) ∧ (∀ p ∈ exprPs, p.input ≠ a) ∧ a ≠ 0 := by
      revert a; decide
    exact ⟨⟨this.1, fun ⟨q, hq, hqa⟩ => this.2.1 q hq hqa⟩, this.2.2⟩
  rintro x ⟨q, hq, rfl⟩
  have hx : q.input ∈ [1, 2, 3, 4, 5, 6] := by revert q; decide
  simp only [List.mem_cons, List.not_mem_nil, or_false] at hx
  rcases hx with hx | hx | hx | hx | hx | hx <;> rw [hx]
  · exact ⟨⟨[], [], .refl _⟩, _, e1, ht⟩
  · exact ⟨⟨[], _, d1⟩, _, e2, fun a ha => ht a (by simp at ha; simp [ha])⟩
  · exact ⟨⟨[4], [16], r1⟩, _, d3, by simp⟩
  · exact ⟨⟨[], _, r1⟩, _, e4, fun a ha => ht a (by simp at ha; simp [ha])⟩
  · exact ⟨⟨[6], _, r2⟩, _, d5, by simp⟩
  · exact ⟨⟨[], _, r2⟩, _, d6, fun a ha => ht a (by simp at ha; simp [ha])⟩

/-- The expression grammar meets the hypotheses of C49. -/
example : ∃ g p, Grammar.new (HashOrder.id Nat) 0 1 exprPs = .ok g ∧
    Built (σ := Unit) (L := Unit) (HashOrder.id Nat) g none p ∧ ConflictFree p.transitions ∧
    NoAdjacentRepeat exprPs ∧ EndMarked 0 1 16 exprPs ∧ Reduced 0 1 exprPs ∧ IsLL1 0 exprPs := by
  obtain ⟨g, p, hg, hp⟩ : ∃ g p, Grammar.new (HashOrder.id Nat) 0 1 exprPs = .ok g ∧
      Built (σ := Unit) (L := Unit) (HashOrder.id Nat) g none p :=
    ⟨_, _, rfl, Parser.built_of_eval (n := 10) rfl⟩
  have hcf := exprPs_conflictFree p _ g hg none hp
  exact ⟨g, p, hg, hp, hcf, exprPs_noAdjacentRepeat, exprPs_endMarked, exprPs_reduced,
    C43_ll1_of_conflictFree _ _ _ _ g hg none p hp exprPs_noAdjacentRepeat hcf⟩

/-- A grammar with the useless symbol `A`: `S → c A $ | d B z $`, `A → B A x`, `B → ε`, with
`S = 1, A = 2, B = 3` and `c = 10, d = 11, z = 12, x = 13, $ = 16`. -/
def uselessPs : List (Production Nat) :=
  [⟨1, [10, 2, 16]⟩, ⟨1, [11, 3, 12, 16]⟩, ⟨2, [3, 2, 13]⟩, ⟨3, [0]⟩]

/-- Without the hypothesis on useless symbols C49 is false: the grammar `uselessPs` is end-marked and
its table has no conflicts, but the parser does not end on `c z $`. -/
theorem C49_useless_symbol_diverges : ∃ g p, Grammar.new (HashOrder.id Nat) 0 1 uselessPs = .ok g ∧
    Built (σ := Unit) (L := Unit) (HashOrder.id Nat) g none p ∧ ConflictFree p.transitions ∧
    NoAdjacentRepeat uselessPs ∧ EndMarked 0 1 16 uselessPs ∧ ¬ Reduced 0 1 uselessPs ∧
    ParseDiverges p [⟨none, 10⟩, ⟨none, 12⟩, ⟨none, 16⟩] () := by
  obtain ⟨g, p, hg, hp, hall, c1, c2, c3⟩ : ∃ g p,
      Grammar.new (HashOrder.id Nat) 0 1 uselessPs = .ok g ∧
      Built (σ := Unit) (L := Unit) (HashOrder.id Nat) g none p ∧
      (∀ x ∈ uselessPs.map (·.input), ∀ a ∈ uselessPs.flatMap (·.output),
        ((p.transitions.getProductions x a).getD []).length ≤ 1) ∧
      candidates p.transitions 1 10 = [[10, 2, 16]] ∧ candidates p.transitions 2 12 = [[3, 2, 13]] ∧
      candidates p.transitions 3 12 = [[0]] :=
    ⟨_, _, rfl, Parser.built_of_eval (n := 10) rfl, by decide, rfl, rfl, rfl⟩
  have hcf := conflictFree_of_check hg hp hall
  have hadj : NoAdjacentRepeat uselessPs := by
    intro p hp u x v he hx
    have : ∀ p ∈ uselessPs, ∀ i < p.output.length, p.output[i]? ≠ p.output[i + 1]? := by decide
    refine this p hp u.length (by rw [he]; simp) ?_
    rw [he]
    simp
  have hem : EndMarked 0 1 16 uselessPs := by
    refine ⟨by decide, ?_, by decide, ?_, by decide⟩
    · rintro ⟨q, hq, e⟩; revert q; decide
    · intro q hq e
      simp only [uselessPs, List.mem_cons, List.not_mem_nil, or_false] at hq
      rcases hq with rfl | rfl | rfl | rfl
      · exact ⟨[10, 2], rfl, by decide⟩
      · exact ⟨[11, 3, 12], rfl, by decide⟩
      · simp at e
      · simp at e
  have hdiv : ParseDiverges p [⟨none, 10⟩, ⟨none, 12⟩, ⟨none, 16⟩] () := by
    refine (C24_ordered_choice _ _ _ _ g hg p hp _ _ ()).2.2.2.2 ?_
    rintro ⟨r, hr⟩
    rw [c1] at hr
    have hloop : Loops (T := Nat) 0 uselessPs (candidates p.transitions) 12 (· = 2) := by
      rintro _ rfl
      exact ⟨[3], 2, [13], [], c2, .nonTerminal 3 [] [0] [] ⟨⟨3, [0]⟩, by decide, rfl⟩ c3 (.eps [] .nil) .nil,
        ⟨⟨2, [3, 2, 13]⟩, by decide, rfl⟩, rfl⟩
    have heps : ¬ IsNonTerminal uselessPs 0 := by
      rintro ⟨q, hq, e⟩; revert q; decide
    have hseq : ∀ r, ¬ Seq 0 uselessPs (candidates p.transitions)
        ([⟨none, 10⟩, ⟨none, 12⟩, ⟨none, 16⟩] : List (Token Unit Nat)) [2, 16] 1 r := by
      intro r h
      exact (seq_loops (t := ⟨none, 12⟩) heps hloop h rfl).2 [] 2 [16] rfl .nil
        ⟨⟨2, [3, 2, 13]⟩, by decide, rfl⟩ rfl
    have hseq' : ∀ r, ¬ Seq 0 uselessPs (candidates p.transitions)
        ([⟨none, 10⟩, ⟨none, 12⟩, ⟨none, 16⟩] : List (Token Unit Nat)) [10, 2, 16] 0 r := by
      intro r h
      generalize hx : [10, 2, 16] = xs at h
      generalize hpos : 0 = pos at h
      cases h with
      | nil => simp at hx
      | eps => simp at hx; omega
      | terminal xs pos t r h1 h2 h3 h4 =>
        simp only [List.cons.injEq] at hx
        rw [← hx.2, ← hpos] at h4
        exact hseq _ h4
      | mismatch x xs pos h1 h2 h3 =>
        simp only [List.cons.injEq] at hx
        subst hpos
        exact h3 _ rfl hx.1
      | nonTerminal x xs pos t r h1 h2 h3 =>
        simp only [List.cons.injEq] at hx
        rw [← hx.1] at h1
        obtain ⟨q, hq, e⟩ := h1
        revert q; decide
      | ranOut x xs pos h1 h2 =>
        subst hpos
        simp at h2
    cases hr with
    | here _ _ _ _ _ _ h => exact hseq' _ h
    | next _ _ _ _ _ h _ => exact hseq' _ h
    | ranOut _ _ _ _ h => exact hseq' _ h
  refine ⟨g, p, hg, hp, hcf, hadj, hem, ?_, hdiv⟩
  intro hred
  have := C49_terminates _ _ _ _ g hg none p hp hcf hadj 16 hem hred
    [⟨none, 10⟩, ⟨none, 12⟩, ⟨none, 16⟩] (by intro sv h; simp at h)
    (by rintro pos r ⟨_, sv, _, _, h, _⟩; simp at h) ()
  rcases this with ⟨r, s', n, h⟩ | ⟨n, e, h⟩
  · have := hdiv n
    simp_all
  · have := hdiv n
    simp_all

end Verif.Props
