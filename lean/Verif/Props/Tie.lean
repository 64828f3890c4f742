import Verif.Proof.Tie
import Verif.Props.Lists

/-!
# Property C101: nesting in brackets
-/

set_option linter.unusedSectionVars false

namespace Verif.Props

open Verif.Spec Verif.Examples

variable {σ L T : Type} [DecidableEq T]

/-- A production selected by what follows `a` is selected by each such symbol. -/
theorem lead_of_ends {eps a c : T} {ps : List (Production T)} (hc : FollowRule eps ps a c) {q : Production T}
    (h : LeadEnds eps a ps q) : Transitions.Lead eps ps q c := by
  have key : ∀ {x}, Ends eps a ps x → FollowRule eps ps x c := by
    intro x hx
    induction hx with
    | self _ => exact hc
    | last hp hr hx ht _ ih => exact .last hp hr hx ht ih
  rcases h with ⟨h1, h2⟩ | ⟨x, t, h1, h2, h3⟩
  · exact .inl ⟨h1, key h2⟩
  · exact .inr ⟨x, t, h1, .inr ⟨h2, key h3⟩⟩

section
variable (h h₁ : HashOrder T) (eps init b op a cl : T) (ps : List (Production T)) (ht : Ties eps b op cl ps)
  (ha : IsNonTerminal ps a) (hi : IsNonTerminal ps init) (g : Grammar T) (hg : Grammar.new h₁ eps init ps = .ok g)
include ht ha hi hg

/-- **C101.** Let `b` be a terminal, and add `b → op a cl` with two new symbols and a non-terminal `a`. The new
grammar is accepted; its sentences are the old ones with `op v cl` in place of every `b`, `v` a word of `a` in which
the same was done, and so on; it is left-recursive only if the old one is; and it has two equal non-terminals side by
side iff the old one has or `b` stands beside `b`. -/
theorem C101_nesting : (∃ g', Grammar.new h eps init (tied b op a cl ps) = .ok g') ∧
    (∀ w, Sentence eps init (tied b op a cl ps) w ↔
      ∃ u, Sentence eps init ps u ∧ Nested b op cl (fun v => Sentence eps a ps v) u w) ∧
    (NotLeftRecursive eps (tied b op a cl ps) ↔ NotLeftRecursive eps ps) ∧
    (NoAdjacentRepeat (tied b op a cl ps) ↔
      NoAdjacentRepeat ps ∧ ∀ p ∈ ps, ∀ u v, p.output ≠ u ++ b :: b :: v) := by
  have hw := (Grammar.grammarOf_of_new hg).wf
  exact ⟨(Grammar.new_eq_ok_iff h eps init _).2 (ht.wellFormed ha hw), fun w => ht.sentence_iff ha hi,
    ht.notLeftRecursive, ht.noAdjacentRepeat ha⟩

variable (sol : Option (Solver σ L T)) (p : Parser σ L T) (hp : Built h₁ g sol p)
  (g' : Grammar T) (hg' : Grammar.new h eps init (tied b op a cl ps) = .ok g')
  (solver : Option (Solver σ L T)) (p' : Parser σ L T) (hp' : Built h g' solver p')
include hp hg' hp'

omit hi in
/-- **C101**, the table: the cells for old terminals stay as they are; those for `op` are the old ones for `b`; and
`b` has the one cell for `op`. -/
theorem C101_cells : (∀ x c, IsNonTerminal ps x → c ≠ b → c ≠ op → c ≠ cl →
      candidates p'.transitions x c = candidates p.transitions x c) ∧
    (∀ x, IsNonTerminal ps x → candidates p'.transitions x op = candidates p.transitions x b) ∧
    (∀ c, candidates p'.transitions b c = if c = op then [[op, a, cl]] else []) := by
  have hfil : ∀ x, IsNonTerminal ps x →
      (tied b op a cl ps).filter (fun r => r.input = x) = ps.filter (fun r => r.input = x) := by
    rintro x ⟨q, hq, rfl⟩
    refine filter_eq_of_embeds ⟨[], [⟨b, [op, a, cl]⟩], by simp [tied], by simp, fun r hr e => ?_⟩
    rw [List.mem_singleton.1 hr] at e
    exact ht.old_ne hq e.symm
  have hold : ∀ {q : Production T} {c}, (∀ r ∈ ps, c ∉ r.output) → ¬ Transitions.Lead eps ps q c :=
    fun hc => Context.not_lead hc
  refine ⟨fun x c hx h1 h2 h3 => ?_, fun x hx => ?_, fun c => ?_⟩
  · refine candidates_eq_of_lead hg hg' hp hp' hx (Ties.nt_iff.2 (.inr hx)) (hfil x hx)
      fun q hq => ⟨Ties.sub hq, fun _ => ?_⟩
    rw [ht.lead ha hq]
    simp [h1, h2, h3]
  · refine candidates_eq_of_lead hg hg' hp hp' hx (Ties.nt_iff.2 (.inr hx)) (hfil x hx)
      fun q hq => ⟨Ties.sub hq, fun _ => ?_⟩
    rw [ht.lead ha hq]
    have := hold (q := q) fun r hr => (ht.new_op.2 r hr).2
    simp [this, ht.differ.2.2]
  · obtain ⟨U, hU, e⟩ := candidates_eq_filter hg' hp'
    have hf : (tied b op a cl ps).filter (fun r => r.input = b) = [⟨b, [op, a, cl]⟩] := by
      unfold tied
      rw [List.filter_append, List.filter_eq_nil_iff.2]
      · simp
      · intro r hr
        simpa using ht.old_ne hr
    have hf' : (tied b op a cl ps).filter (fun r => r.input = b ∧ c ∈ U r) =
        ((tied b op a cl ps).filter (fun r => r.input = b)).filter (fun r => c ∈ U r) := by
      rw [List.filter_filter]
      apply List.filter_congr
      intro r _
      rw [Bool.and_comm, ← Bool.decide_and]
    have hm : (⟨b, [op, a, cl]⟩ : Production T) ∈ tied b op a cl ps := Ties.mem_iff.2 (.inr rfl)
    have hlead : Transitions.Lead eps (tied b op a cl ps) ⟨b, [op, a, cl]⟩ c ↔ c = op := by
      have hn : ¬ Nullable eps (tied b op a cl ps) op := fun k => by
        have := Derives.terminal_eq ht.op_terminal k
        simp at this
      unfold Transitions.Lead
      rw [ht.rhs_b]
      constructor
      · rintro (⟨k, -⟩ | ⟨y, t, k, k'⟩)
        · simp at k
        · simp only [List.cons.injEq] at k
          obtain ⟨rfl, -⟩ := k
          rcases k' with ⟨_, _, v, hd⟩ | ⟨k', -⟩
          · have := Derives.terminal_eq ht.op_terminal hd
            simp only [List.cons.injEq] at this
            exact this.1
          · exact absurd k' hn
      · rintro rfl
        exact .inr ⟨c, [a, cl], rfl, .inl ⟨⟨⟨_, hm, by simp⟩, ht.op_terminal⟩, ht.new_op.1, [], .refl _⟩⟩
    rw [e, hf', hf]
    have hU' := (hU _ hm c).trans hlead
    by_cases hc : c = op
    · have := hU'.2 hc
      simp [hc, hc ▸ this]
    · have : c ∉ U ⟨b, [op, a, cl]⟩ := fun k => hc (hU'.1 k)
      simp [hc, this]

omit hi in
/-- **C101**, conflicts: if something can follow `a` in the old grammar, the new table is free of conflicts iff the
old one is. -/
theorem C101_conflict_free (hadj : NoAdjacentRepeat ps) (c0 : T) (h0 : CanFollow eps ps a c0) :
    ConflictFree p'.transitions ↔ ConflictFree p.transitions := by
  obtain ⟨k1, k2, k3⟩ := C101_cells h h₁ eps init b op a cl ps ht ha g hg sol p hp g' hg' solver p' hp'
  have hfol := followRule_complete hadj ha h0
  rw [conflictFree_iff, conflictFree_iff]
  constructor
  · intro hcf x c
    by_cases hx : IsNonTerminal ps x
    · by_cases hcb : c = b
      · rw [hcb, ← k2 x hx]
        exact hcf x op
      by_cases hc : c = op ∨ c = cl
      · obtain ⟨U, hU, e⟩ := candidates_eq_filter hg hp
        rw [e, List.filter_eq_nil_iff.2]
        · simp
        · intro r hr k
          simp only [decide_eq_true_eq] at k
          refine Context.not_lead (fun s hs => ?_) ((hU r hr c).1 k.2)
          rcases hc with rfl | rfl
          · exact (ht.new_op.2 s hs).2
          · exact (ht.new_cl.2 s hs).2
      · rw [← k1 x c hx hcb (fun e => hc (.inl e)) fun e => hc (.inr e)]
        exact hcf x c
    · rw [candidates_nil hg hp hx]
      simp
  · intro hcf x c
    by_cases hx' : IsNonTerminal (tied b op a cl ps) x
    · rcases Ties.nt_iff.1 hx' with rfl | hx
      · rw [k3]
        split <;> simp
      · by_cases hco : c = op
        · rw [hco, k2 x hx]
          exact hcf x b
        by_cases hcc : c = cl
        · subst hcc
          have hfil : (tied b op a c ps).filter (fun r => r.input = x) = ps.filter (fun r => r.input = x) := by
            obtain ⟨q, hq, rfl⟩ := hx
            refine filter_eq_of_embeds ⟨[], [⟨b, [op, a, c]⟩], by simp [tied], by simp, fun r hr e => ?_⟩
            rw [List.mem_singleton.1 hr] at e
            exact ht.old_ne hq e.symm
          refine (candidates_length_le hg hg' hp hp' (a := c0) hfil fun q hq e k => ?_).trans (hcf x c0)
          have hqp := mem_of_filter hfil q hq e
          have hn : ¬ Transitions.Lead eps ps q c := Context.not_lead fun r hr => (ht.new_cl.2 r hr).2
          rcases (ht.lead ha hqp c).1 k with k | k | k
          · exact absurd k.2 hn
          · exact absurd k.1 hco
          · exact lead_of_ends hfol k.2
        by_cases hcb : c = b
        · rw [hcb]
          obtain ⟨U, hU, e⟩ := candidates_eq_filter hg' hp'
          rw [e, List.filter_eq_nil_iff.2]
          · simp
          · intro r hr k
            simp only [decide_eq_true_eq] at k
            exact (lead_isTerminal ((hU r hr b).1 k.2)).2 (Ties.nt_iff.2 (.inl rfl))
        · rw [k1 x c hx hcb hco hcc]
          exact hcf x c
    · rw [candidates_nil hg' hp' hx']
      simp

end

section
variable (h h₁ : HashOrder T) (eps init b op a cl : T) (ps : List (Production T)) (ht : Ties eps b op cl ps)
  (ha : IsNonTerminal ps a) (hi : IsNonTerminal ps init) (g : Grammar T) (hg : Grammar.new h₁ eps init ps = .ok g)
  (sol : Option (Solver σ L T)) (p : Parser σ L T) (hp : Built h₁ g sol p)
  (g' : Grammar T) (hg' : Grammar.new h eps init (tied b op a cl ps) = .ok g')
  (p' : Parser σ L T) (hp' : Built h g' none p')
include ht ha hi hg hp hg' hp'

/-- **C101**, deciding. Let the old grammar be end-marked by a terminal other than `b`, without left recursion, without
two equal non-terminals side by side and `b` nowhere beside `b`, its table free of conflicts, and let something follow
`a`, which is not the initial non-terminal. Then nothing has to be checked of the new grammar: an input that ends with
the end marker gives `Ok` if it is an old sentence with bracketed words in place of every `b`, to any depth; and `Err`
if it is not. -/
theorem C101_decides (e : T) (hm : EndMarked eps init e ps) (heb : e ≠ b) (hai : a ≠ init)
    (hnlr : NotLeftRecursive eps ps) (hadj : NoAdjacentRepeat ps) (hbb : ∀ p ∈ ps, ∀ u v, p.output ≠ u ++ b :: b :: v)
    (c0 : T) (h0 : CanFollow eps ps a c0) (hcf : ConflictFree p.transitions)
    (tokens : List (Token L T)) (hin : EndsWith e tokens) (s : σ) :
    ((∃ u, Sentence eps init ps u ∧ Nested b op cl (fun v => Sentence eps a ps v) u (tokens.map (·.tType))) →
      ∃ tree, Parses p' tokens s (.ok tree) s ∧ leaves eps tree.root = tokens ∧
        IsTree eps (tied b op a cl ps) init tokens tree.root) ∧
    ((¬ ∃ u, Sentence eps init ps u ∧ Nested b op cl (fun v => Sentence eps a ps v) u (tokens.map (·.tType))) →
      ∃ f s', Parses p' tokens s (.err f) s') := by
  obtain ⟨-, hsen, hl, hr⟩ := C101_nesting h h₁ eps init b op a cl ps ht ha hi g hg
  have hcf' := (C101_conflict_free h h₁ eps init b op a cl ps ht ha g hg sol p hp g' hg' none p' hp' hadj c0 h0).2 hcf
  have hni : ∀ {c}, NewSymbol eps ps c → init ≠ c := by
    rintro c hc rfl
    obtain ⟨q, hq, e⟩ := hi
    exact (hc.2 q hq).1 e
  have hib : init ≠ b := fun k => ht.terminal (k ▸ hi)
  have hne : ∀ {c}, NewSymbol eps ps c → e ≠ c := by
    rintro c hc rfl
    obtain ⟨q, hq, k⟩ := hi
    obtain ⟨u, k', -⟩ := hm.initial_ends q hq k
    exact (hc.2 q hq).2 (by simp [k'])
  have hea : e ≠ a := fun k => hm.terminal (k ▸ ha)
  have hm' : EndMarked eps init e (tied b op a cl ps) := by
    refine ⟨hm.ne_eps, fun k => (Ties.nt_iff.1 k).elim heb hm.terminal, fun r hr => ?_, fun r hr hri => ?_,
      fun r hr hri => ?_⟩
    · rcases Ties.mem_iff.1 hr with hr | rfl
      · exact hm.initial_once r hr
      · simp [hni ht.new_op, hni ht.new_cl, hai.symm]
    · rcases Ties.mem_iff.1 hr with hr | rfl
      · exact hm.initial_ends r hr hri
      · exact absurd hri.symm hib
    · rcases Ties.mem_iff.1 hr with hr | rfl
      · exact hm.only_there r hr hri
      · simp [hne ht.new_op, hne ht.new_cl, hea]
  obtain ⟨k1, k2⟩ := C22_decides h eps init _ g' hg' p' hp' hcf' (hr.2 ⟨hadj, hbb⟩) (hl.2 hnlr) e hm' tokens hin s
  rw [hsen] at k1 k2
  refine ⟨fun hs => ?_, k2⟩
  obtain ⟨tree, h1, h2⟩ := k1 hs
  exact ⟨tree, h1, isTree_leaves (Grammar.grammarOf_of_new hg').wf h2, h2⟩

end

/-- Lists of elements `x` or `B` with commas and an end marker, `S → L $`, `L → E R`, `R → , E R | ε`, `E → x | B`:
`S = 1, L = 2, R = 3, E = 4, B = 5`, `x = 10, , is 13, $ is 14`. -/
def flatPs : List (Production Nat) := [⟨1, [2, 14]⟩, ⟨2, [4, 3]⟩, ⟨3, [13, 4, 3]⟩, ⟨3, [0]⟩, ⟨4, [10]⟩, ⟨4, [5]⟩]

/-- The hypotheses of C101 are met: with `B → ( L )`, `( = 11, ) = 12`, the nested list `x,((x),x)` is accepted. -/
theorem C101_example : ∃ g g' p p' tree, Ties 0 5 11 12 flatPs ∧ IsNonTerminal flatPs 2 ∧ IsNonTerminal flatPs 1 ∧
    Grammar.new (HashOrder.id Nat) 0 1 flatPs = .ok g ∧
    Built (σ := Unit) (L := Unit) (HashOrder.id Nat) g none p ∧
    Grammar.new (HashOrder.id Nat) 0 1 (tied 5 11 2 12 flatPs) = .ok g' ∧
    Built (σ := Unit) (L := Unit) (HashOrder.id Nat) g' none p' ∧
    EndMarked 0 1 14 flatPs ∧ NotLeftRecursive 0 flatPs ∧ NoAdjacentRepeat flatPs ∧
    (∀ p ∈ flatPs, ∀ u v, p.output ≠ u ++ 5 :: 5 :: v) ∧ CanFollow 0 flatPs 2 14 ∧ ConflictFree p.transitions ∧
    Parses p' [⟨none, 10⟩, ⟨none, 13⟩, ⟨none, 11⟩, ⟨none, 11⟩, ⟨none, 10⟩, ⟨none, 12⟩, ⟨none, 13⟩, ⟨none, 10⟩,
      ⟨none, 12⟩, ⟨none, 14⟩] () (.ok tree) () := by
  obtain ⟨g, g', p, p', tree, hg, hp, hg', hp', hr, c1⟩ : ∃ g g' p p' tree,
      Grammar.new (HashOrder.id Nat) 0 1 flatPs = .ok g ∧
      Built (σ := Unit) (L := Unit) (HashOrder.id Nat) g none p ∧
      Grammar.new (HashOrder.id Nat) 0 1 (tied 5 11 2 12 flatPs) = .ok g' ∧
      Built (σ := Unit) (L := Unit) (HashOrder.id Nat) g' none p' ∧
      Parses p' [⟨none, 10⟩, ⟨none, 13⟩, ⟨none, 11⟩, ⟨none, 11⟩, ⟨none, 10⟩, ⟨none, 12⟩, ⟨none, 13⟩, ⟨none, 10⟩,
        ⟨none, 12⟩, ⟨none, 14⟩] () (.ok tree) () ∧
      (∀ x ∈ flatPs.map (·.input), ∀ a ∈ flatPs.flatMap (·.output),
        ((p.transitions.getProductions x a).getD []).length ≤ 1) :=
    ⟨_, _, _, _, _, rfl, Parser.built_of_eval (n := 10) rfl, rfl, Parser.built_of_eval (n := 10) rfl,
      Parser.parse_returns (n := 60) rfl, by decide⟩
  refine ⟨g, g', p, p', tree, ⟨by decide, by unfold IsNonTerminal; decide, ⟨by decide, by decide⟩,
    ⟨by decide, by decide⟩, by decide⟩, ⟨⟨2, [4, 3]⟩, by decide, rfl⟩, ⟨⟨1, [2, 14]⟩, by decide, rfl⟩, hg, hp, hg', hp',
    ⟨by decide, by unfold IsNonTerminal; decide, by decide, ?_, by decide⟩, ?_, noAdjacentRepeat_of (by decide), ?_,
    ⟨?_, by decide, 1, [], [], ⟨⟨1, [2, 14]⟩, by decide, rfl⟩, .of_step (Step.mk [] [] ⟨1, [2, 14]⟩ (by decide))⟩,
    conflictFree_of_check hg hp c1, hr⟩
  · intro p hp e
    have : p = ⟨1, [2, 14]⟩ := by
      revert p
      decide
    subst this
    exact ⟨[2], rfl, by decide⟩
  · exact notLeftRecursive_of_rank (fun x => x == 3) (fun x => if x < 5 then 5 - x + (if x = 4 then 0 else 1) else 0)
      (by decide)
  · intro p hp u v e
    have h1 : p.output[u.length]? = some 5 := by rw [e]; simp
    have h2 : p.output[u.length + 1]? = some 5 := by rw [e]; simp
    have : ∀ p ∈ flatPs, ∀ i < p.output.length, p.output[i]? = some 5 → p.output[i + 1]? ≠ some 5 := by decide
    exact this p hp u.length (by rw [e]; simp) h1 h2
  · unfold IsTerminal IsNonTerminal
    decide

end Verif.Props
