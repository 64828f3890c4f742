import Verif.Proof.Lists
import Verif.Props.Plug

/-!
# Property C100: brackets, optional parts and lists with separators
-/

set_option linter.unusedSectionVars false

namespace Verif.Props

open Verif.Spec Verif.Examples

variable {σ L T : Type} [DecidableEq T]

/-- A cell of a table, by the lookaheads of the productions. -/
theorem candidates_eq_filter {h : HashOrder T} {eps init : T} {ps : List (Production T)}
    {g : Grammar T} (hg : Grammar.new h eps init ps = .ok g) {solver : Option (Solver σ L T)} {p : Parser σ L T}
    (hp : Built h g solver p) : ∃ U : Production T → List T, (∀ r ∈ ps, ∀ d, d ∈ U r ↔ Transitions.Lead eps ps r d) ∧
      ∀ x d, candidates p.transitions x d = (ps.filter (fun r => r.input = x ∧ d ∈ U r)).map (·.output) := by
  obtain ⟨ff, hff, e⟩ := (Parser.built_iff hg).1 hp
  obtain ⟨U, hT, hU⟩ := table_spec hg hff (Parser.from_eq_ok e).2.2
  refine ⟨U, hU, fun x d => ?_⟩
  by_cases hx : IsNonTerminal ps x
  · unfold candidates
    by_cases hd : IsTerminal ps d
    · rw [hT.some x d hx hd]
      rfl
    · rw [hT.none x d fun h => hd h.2]
      have : ps.filter (fun r => r.input = x ∧ d ∈ U r) = [] := by
        rw [List.filter_eq_nil_iff]
        intro r hr hc
        simp only [decide_eq_true_eq] at hc
        exact hd (lead_isTerminal ((hU r hr d).1 hc.2))
      rw [this]
      rfl
  · rw [candidates_nil hg hp hx]
    have : ps.filter (fun r => r.input = x ∧ d ∈ U r) = [] := by
      rw [List.filter_eq_nil_iff]
      intro r hr hc
      simp only [decide_eq_true_eq] at hc
      exact hx ⟨r, hr, hc.1⟩
    rw [this]
    rfl

/-- A cell is no longer than another one if its lookaheads are among those of the other one. -/
theorem candidates_length_le {τ : Type} {h h' : HashOrder T} {eps init init' : T} {ps all : List (Production T)}
    {g g' : Grammar T} (hg : Grammar.new h eps init ps = .ok g) (hg' : Grammar.new h' eps init' all = .ok g')
    {solver : Option (Solver σ L T)} {solver' : Option (Solver τ L T)} {p : Parser σ L T} {p' : Parser τ L T}
    (hp : Built h g solver p) (hp' : Built h' g' solver' p') {x a a' : T}
    (hfil : all.filter (fun r => r.input = x) = ps.filter (fun r => r.input = x))
    (hlead : ∀ q ∈ all, q.input = x → Transitions.Lead eps all q a' → Transitions.Lead eps ps q a) :
    (candidates p'.transitions x a').length ≤ (candidates p.transitions x a).length := by
  obtain ⟨U, hU, e⟩ := candidates_eq_filter hg hp
  obtain ⟨U', hU', e'⟩ := candidates_eq_filter hg' hp'
  rw [e, e', List.length_map, List.length_map]
  have hf : ∀ (l : List (Production T)) (U : Production T → List T) (d : T),
      l.filter (fun r => r.input = x ∧ d ∈ U r) = (l.filter (fun r => r.input = x)).filter (fun r => d ∈ U r) := by
    intro l U d
    rw [List.filter_filter]
    apply List.filter_congr
    intro r _
    rw [Bool.and_comm, ← Bool.decide_and]
  rw [hf, hf, hfil]
  apply List.Sublist.length_le
  have hmem : ∀ r ∈ ps.filter (fun r => r.input = x), r ∈ ps ∧ r ∈ all ∧ r.input = x := by
    intro r hr
    have h1 := hr
    rw [← hfil] at h1
    simp only [List.mem_filter, decide_eq_true_eq] at hr h1
    exact ⟨hr.1, h1.1, hr.2⟩
  generalize ps.filter (fun r => r.input = x) = l at hmem
  induction l with
  | nil => exact .slnil
  | cons r l ih =>
    obtain ⟨h1, h2, h3⟩ := hmem r (by simp)
    have ih := ih fun r hr => hmem r (by simp [hr])
    by_cases k : a' ∈ U' r
    · have k' : a ∈ U r := (hU r h1 a).2 (hlead r h2 h3 ((hU' r h2 a').1 k))
      rw [List.filter_cons_of_pos (by simpa using k), List.filter_cons_of_pos (by simpa using k')]
      exact ih.cons_cons r
    · rw [List.filter_cons_of_neg (by simpa using k)]
      by_cases k' : a ∈ U r
      · rw [List.filter_cons_of_pos (by simpa using k')]
        exact ih.cons r
      · rw [List.filter_cons_of_neg (by simpa using k')]
        exact ih

/-- Of the same grammar in two contexts, one has no conflict in a cell if the other one has none. -/
theorem conflictFree_of_context {τ : Type} {h₁ h₂ : HashOrder T} {eps a i1 i2 : T} {ps all1 all2 : List (Production T)}
    {D1 D2 : T → Prop} (C1 : Context eps a D1 ps all1) (C2 : Context eps a D2 ps all2)
    {g1 g2 : Grammar T} (hg1 : Grammar.new h₁ eps i1 all1 = .ok g1) (hg2 : Grammar.new h₂ eps i2 all2 = .ok g2)
    {s1 : Option (Solver σ L T)} {s2 : Option (Solver τ L T)} {p1 : Parser σ L T} {p2 : Parser τ L T}
    (hp1 : Built h₁ g1 s1 p1) (hp2 : Built h₂ g2 s2 p2)
    (hfil : ∀ x, IsNonTerminal ps x → all2.filter (fun r => r.input = x) = all1.filter (fun r => r.input = x))
    (hin : ∀ x, IsNonTerminal ps x → ∀ r ∈ all2, r.input = x → r ∈ ps)
    (hD : ∀ c, D2 c → ∀ r ∈ ps, c ∉ r.output) {c0 : T} (h0 : D1 c0)
    (hcf : ConflictFree p1.transitions) {x : T} (hx : IsNonTerminal ps x) (c : T) :
    (candidates p2.transitions x c).length ≤ 1 := by
  rw [conflictFree_iff] at hcf
  by_cases hc : D2 c
  · refine (candidates_length_le hg1 hg2 hp1 hp2 (a := c0) (hfil x hx) fun q hq e k => ?_).trans (hcf x c0)
    have hqp := hin x hx q hq e
    rcases (C2.lead hqp c).1 k with k | ⟨-, k⟩
    · exact absurd k (Context.not_lead (hD c hc))
    · exact (C1.lead hqp c0).2 (.inr ⟨h0, k⟩)
  · refine (candidates_length_le hg1 hg2 hp1 hp2 (a := c) (hfil x hx) fun q hq e k => ?_).trans (hcf x c)
    have hqp := hin x hx q hq e
    rcases (C2.lead hqp c).1 k with k | ⟨k, -⟩
    · exact (C1.lead hqp c).2 (.inl k)
    · exact absurd k hc

/-- Cells with the old symbols, of the same grammar in two contexts. -/
theorem cells_of_context {τ : Type} {h₁ h₂ : HashOrder T} {eps a i1 i2 : T} {ps all1 all2 : List (Production T)}
    {D1 D2 : T → Prop} (C1 : Context eps a D1 ps all1) (C2 : Context eps a D2 ps all2)
    {g1 g2 : Grammar T} (hg1 : Grammar.new h₁ eps i1 all1 = .ok g1) (hg2 : Grammar.new h₂ eps i2 all2 = .ok g2)
    {s1 : Option (Solver σ L T)} {s2 : Option (Solver τ L T)} {p1 : Parser σ L T} {p2 : Parser τ L T}
    (hp1 : Built h₁ g1 s1 p1) (hp2 : Built h₂ g2 s2 p2) {x : T} (hx : IsNonTerminal ps x) {c1 c2 : T}
    (hf1 : all1.filter (fun r => r.input = x) = ps.filter (fun r => r.input = x))
    (hf2 : all2.filter (fun r => r.input = x) = ps.filter (fun r => r.input = x))
    (hc : (c1 = c2 ∧ ¬ D1 c1 ∧ ¬ D2 c1) ∨ (D1 c1 ∧ D2 c2 ∧ (∀ r ∈ ps, c1 ∉ r.output) ∧ ∀ r ∈ ps, c2 ∉ r.output)) :
    candidates p2.transitions x c2 = candidates p1.transitions x c1 := by
  have hin : ∀ {all : List (Production T)}, all.filter (fun r => r.input = x) = ps.filter (fun r => r.input = x) →
      ∀ r ∈ all, r.input = x → r ∈ ps := by
    intro all e r hr hx
    have : r ∈ ps.filter (fun r => r.input = x) := e ▸ by simp [hr, hx]
    exact (List.mem_filter.1 this).1
  obtain ⟨U, hU, e⟩ := candidates_eq_filter hg1 hp1
  obtain ⟨U', hU', e'⟩ := candidates_eq_filter hg2 hp2
  rw [e, e']
  have hf : ∀ (l : List (Production T)) (U : Production T → List T) (d : T),
      l.filter (fun r => r.input = x ∧ d ∈ U r) = (l.filter (fun r => r.input = x)).filter (fun r => d ∈ U r) := by
    intro l U d
    rw [List.filter_filter]
    apply List.filter_congr
    intro r _
    rw [Bool.and_comm, ← Bool.decide_and]
  rw [hf, hf, hf1, hf2]
  congr 1
  apply List.filter_congr
  intro r hr
  have hr' := List.mem_filter.1 hr
  rw [decide_eq_decide, hU r (C1.sub r hr'.1), hU' r (C2.sub r hr'.1), C1.lead hr'.1, C2.lead hr'.1]
  rcases hc with ⟨rfl, k1, k2⟩ | ⟨k1, k2, k3, k4⟩
  · simp [k1, k2]
  · simp [k1, k2, Context.not_lead (eps := eps) (q := r) k3, Context.not_lead (eps := eps) (q := r) k4]

/-- The filter of an augmented grammar. -/
theorem filter_augment {eps init start stop : T} {ps : List (Production T)} (hf : Fresh eps ps start stop) {x : T}
    (hx : IsNonTerminal ps x) :
    (augment init start stop ps).filter (fun r => r.input = x) = ps.filter (fun r => r.input = x) := by
  refine filter_eq_of_embeds ⟨[⟨start, [init, stop]⟩], [], by simp [augment], fun r hr e => ?_, by simp⟩
  obtain ⟨q, hq, rfl⟩ := hx
  rw [List.mem_singleton.1 hr] at e
  exact (hf.start_unused q hq).1 e.symm

/-- A production of the input is among those of the filter. -/
theorem mem_of_filter {all ps : List (Production T)} {x : T}
    (e : all.filter (fun r => r.input = x) = ps.filter (fun r => r.input = x)) :
    ∀ r ∈ all, r.input = x → r ∈ ps := by
  intro r hr hx
  have : r ∈ ps.filter (fun r => r.input = x) := e ▸ by simp [hr, hx]
  exact (List.mem_filter.1 this).1

/-- The cells of the new start symbol of an augmented grammar. -/
theorem candidates_start_le {h : HashOrder T} {eps init start stop : T} {ps : List (Production T)}
    (hf : Fresh eps ps start stop) {g : Grammar T} (hg : Grammar.new h eps start (augment init start stop ps) = .ok g)
    {solver : Option (Solver σ L T)} {p : Parser σ L T} (hp : Built h g solver p) (c : T) :
    (candidates p.transitions start c).length ≤ 1 := by
  refine (candidates_le hg hp start c).trans ?_
  have : (augment init start stop ps).filter (fun r => r.input = start) = [⟨start, [init, stop]⟩] := by
    unfold augment
    rw [List.filter_cons_of_pos (by simp), List.filter_eq_nil_iff.2]
    intro r hr
    simpa using (hf.start_unused r hr).1
  rw [this]
  simp

/-- Only cells of non-terminals have to be checked. -/
theorem conflictFree_of_le {h : HashOrder T} {eps init : T} {ps : List (Production T)} {g : Grammar T}
    (hg : Grammar.new h eps init ps = .ok g) {solver : Option (Solver σ L T)} {p : Parser σ L T}
    (hp : Built h g solver p)
    (hle : ∀ x, IsNonTerminal ps x → ∀ c, (candidates p.transitions x c).length ≤ 1) : ConflictFree p.transitions := by
  rw [conflictFree_iff]
  intro x c
  by_cases hx : IsNonTerminal ps x
  · exact hle x hx c
  · rw [candidates_nil hg hp hx]
    simp

/-- Two productions of the same input are no conflict if they have different lookaheads. -/
theorem candidates_le_of_two {h : HashOrder T} {eps init : T} {ps : List (Production T)} {g : Grammar T}
    (hg : Grammar.new h eps init ps = .ok g) {solver : Option (Solver σ L T)} {p : Parser σ L T}
    (hp : Built h g solver p) {x c : T} {q r : Production T}
    (hfil : ps.filter (fun r => r.input = x) = [q, r])
    (hno : ¬ (Transitions.Lead eps ps q c ∧ Transitions.Lead eps ps r c)) :
    (candidates p.transitions x c).length ≤ 1 := by
  obtain ⟨U, hU, e⟩ := candidates_eq_filter hg hp
  have hm : ∀ s ∈ [q, r], s ∈ ps := fun s hs => by
    rw [← hfil] at hs
    exact (List.mem_filter.1 hs).1
  have hf : ps.filter (fun r => r.input = x ∧ c ∈ U r) = (ps.filter (fun r => r.input = x)).filter (fun r => c ∈ U r) := by
    rw [List.filter_filter]
    apply List.filter_congr
    intro r _
    rw [Bool.and_comm, ← Bool.decide_and]
  rw [e, hf, hfil, List.length_map]
  rw [← hU q (hm q (by simp)) c, ← hU r (hm r (by simp)) c] at hno
  by_cases k1 : c ∈ U q
  · by_cases k2 : c ∈ U r
    · exact absurd ⟨k1, k2⟩ hno
    · simp [k1, k2]
  · by_cases k2 : c ∈ U r
    · simp [k1, k2]
    · simp [k1, k2]

/-- Two productions of the same input are a conflict if they have a common lookahead. -/
theorem candidates_two {h : HashOrder T} {eps init : T} {ps : List (Production T)} {g : Grammar T}
    (hg : Grammar.new h eps init ps = .ok g) {solver : Option (Solver σ L T)} {p : Parser σ L T}
    (hp : Built h g solver p) {x c : T} {q r : Production T}
    (hfil : ps.filter (fun r => r.input = x) = [q, r])
    (h1 : Transitions.Lead eps ps q c) (h2 : Transitions.Lead eps ps r c) :
    (candidates p.transitions x c).length = 2 := by
  obtain ⟨U, hU, e⟩ := candidates_eq_filter hg hp
  have hm : ∀ s ∈ [q, r], s ∈ ps := fun s hs => by
    rw [← hfil] at hs
    exact (List.mem_filter.1 hs).1
  have hf : ps.filter (fun r => r.input = x ∧ c ∈ U r) = (ps.filter (fun r => r.input = x)).filter (fun r => c ∈ U r) := by
    rw [List.filter_filter]
    apply List.filter_congr
    intro r _
    rw [Bool.and_comm, ← Bool.decide_and]
  rw [e, hf, hfil, List.length_map]
  rw [← hU q (hm q (by simp)) c] at h1
  rw [← hU r (hm r (by simp)) c] at h2
  simp [h1, h2]

/-! ## Brackets -/

section
variable (h h₁ h₀ : HashOrder T) (eps start op a cl : T) (ps : List (Production T))
  (hb : Brackets eps ps start op cl) (ha : IsNonTerminal ps a)
  (g : Grammar T) (hg : Grammar.new h₁ eps a ps = .ok g)
include hb ha hg

/-- **C100**, brackets. Add `start → op a cl` to a grammar with initial non-terminal `a`, with `start` and `cl` new
and `op` a terminal. The new grammar is accepted and end-marked by `cl`; its sentences are those of the old one
between `op` and `cl`; its trees are the old ones between two leaves; it is left-recursive, or has two equal
non-terminals side by side, only if the old one is or has. -/
theorem C100_brackets : (∃ g', Grammar.new h eps start (bracketed start op a cl ps) = .ok g') ∧
    EndMarked eps start cl (bracketed start op a cl ps) ∧
    (∀ w, Sentence eps start (bracketed start op a cl ps) w ↔ ∃ v, w = op :: v ++ [cl] ∧ Sentence eps a ps v) ∧
    (∀ (w : List (Token L T)) n, IsTree eps (bracketed start op a cl ps) start w n ↔
      ∃ t v m t', w = t :: v ++ [t'] ∧ t.tType = op ∧ t'.tType = cl ∧ IsTree eps ps a v m ∧
        n = .mk [.mk [] t, m, .mk [] t'] ⟨none, start⟩) ∧
    (NotLeftRecursive eps (bracketed start op a cl ps) ↔ NotLeftRecursive eps ps) ∧
    (NoAdjacentRepeat (bracketed start op a cl ps) ↔ NoAdjacentRepeat ps) := by
  have hw := (Grammar.grammarOf_of_new hg).wf
  refine ⟨(Grammar.new_eq_ok_iff h eps start _).2 (Bracketed.wellFormed hb ha hw), Bracketed.endMarked hb ha,
    fun w => Bracketed.sentence_iff hb ha, fun w n => ⟨Bracketed.tree hb ha, ?_⟩, Bracketed.notLeftRecursive hb ha,
    Bracketed.noAdjacentRepeat hb ha⟩
  rintro ⟨t, v, m, t', rfl, h1, h2, h3, rfl⟩
  exact Bracketed.tree_mk hb ha h1 h2 h3

variable (s0 m0 : T) (hf0 : Fresh eps ps s0 m0) (g0 : Grammar T)
  (hg0 : Grammar.new h₀ eps s0 (augment a s0 m0 ps) = .ok g0) (p0 : Parser σ L T) (sol0 : Option (Solver σ L T))
  (hp0 : Built h₀ g0 sol0 p0)
  (g' : Grammar T) (hg' : Grammar.new h eps start (bracketed start op a cl ps) = .ok g')
  (solver : Option (Solver σ L T)) (p : Parser σ L T) (hp : Built h g' solver p)
include hf0 hg0 hp0 hg' hp

/-- **C100**, brackets: the table of the new grammar is free of conflicts iff that of the old grammar with an end
marker is. -/
theorem C100_brackets_conflict_free : ConflictFree p.transitions ↔ ConflictFree p0.transitions := by
  have C0 := Context.augment hf0 ha
  have C1 := Bracketed.context hb ha
  have hfil : ∀ x, IsNonTerminal ps x →
      (bracketed start op a cl ps).filter (fun r => r.input = x) = ps.filter (fun r => r.input = x) := by
    rintro x ⟨q, hq, rfl⟩
    refine filter_eq_of_embeds ⟨[⟨start, [op, a, cl]⟩], [], by simp [bracketed], fun r hr e => ?_, by simp⟩
    rw [List.mem_singleton.1 hr] at e
    exact (hb.new_start.2 q hq).1 e.symm
  constructor
  · intro hcf
    refine conflictFree_of_le hg0 hp0 fun x hx c => ?_
    by_cases hxp : IsNonTerminal ps x
    · exact conflictFree_of_context C1 C0 hg' hg0 hp hp0
        (fun x hx => (filter_augment hf0 hx).trans (hfil x hx).symm)
        (fun x hx => mem_of_filter (filter_augment hf0 hx)) (fun c e r hr => e ▸ (hf0.stop_unused r hr).2) rfl hcf hxp c
    · obtain ⟨q, hq, rfl⟩ := hx
      rcases mem_augment.1 hq with rfl | hq
      · exact candidates_start_le hf0 hg0 hp0 c
      · exact absurd ⟨q, hq, rfl⟩ hxp
  · intro hcf
    refine conflictFree_of_le hg' hp fun x hx c => ?_
    rcases Bracketed.isNonTerminal_iff.1 hx with rfl | hxp
    · refine (candidates_le hg' hp _ c).trans ?_
      have : (bracketed x op a cl ps).filter (fun r => r.input = x) = [⟨x, [op, a, cl]⟩] := by
        unfold bracketed
        rw [List.filter_cons_of_pos (by simp), List.filter_eq_nil_iff.2]
        intro r hr
        simpa using (hb.new_start.2 r hr).1
      rw [this]
      simp
    · exact conflictFree_of_context C0 C1 hg0 hg' hp0 hp
        (fun x hx => (hfil x hx).trans (filter_augment hf0 hx).symm)
        (fun x hx => mem_of_filter (hfil x hx)) (fun c e r hr => e ▸ (hb.new_cl.2 r hr).2) rfl hcf hxp c

end

section
variable (h h₁ h₀ : HashOrder T) (eps start op a cl : T) (ps : List (Production T))
  (hb : Brackets eps ps start op cl) (ha : IsNonTerminal ps a)
  (g : Grammar T) (hg : Grammar.new h₁ eps a ps = .ok g)
  (s0 m0 : T) (hf0 : Fresh eps ps s0 m0) (g0 : Grammar T)
  (hg0 : Grammar.new h₀ eps s0 (augment a s0 m0 ps) = .ok g0) (p0 : Parser σ L T) (sol0 : Option (Solver σ L T))
  (hp0 : Built h₀ g0 sol0 p0)
  (g' : Grammar T) (hg' : Grammar.new h eps start (bracketed start op a cl ps) = .ok g')
  (p : Parser σ L T) (hp : Built h g' none p)
include hb ha hg hf0 hg0 hp0 hg' hp

/-- **C100**, brackets, deciding. Let the old grammar be without left recursion and without two equal non-terminals
side by side, and with an end marker free of conflicts. Then an input that ends with `cl` gives `Ok`, with the old
tree between two leaves, if it is an old sentence between `op` and `cl`; and `Err` if it is not. -/
theorem C100_brackets_decides (hcf : ConflictFree p0.transitions) (hnlr : NotLeftRecursive eps ps)
    (hadj : NoAdjacentRepeat ps) (tokens : List (Token L T)) (hin : EndsWith cl tokens) (s : σ) :
    ((∃ v, tokens.map (·.tType) = op :: v ++ [cl] ∧ Sentence eps a ps v) →
      ∃ t v m t', tokens = t :: v ++ [t'] ∧ IsTree eps ps a v m ∧
        Parses p tokens s (.ok ⟨.mk [.mk [] t, m, .mk [] t'] ⟨none, start⟩⟩) s) ∧
    ((¬ ∃ v, tokens.map (·.tType) = op :: v ++ [cl] ∧ Sentence eps a ps v) → ∃ f s', Parses p tokens s (.err f) s') := by
  obtain ⟨-, hem, hsen, htree, hl, hr⟩ := C100_brackets (L := L) h h₁ eps start op a cl ps hb ha g hg
  have hcf' := (C100_brackets_conflict_free h h₁ h₀ eps start op a cl ps hb ha g hg s0 m0 hf0 g0 hg0 p0 sol0 hp0 g' hg'
    none p hp).2 hcf
  obtain ⟨k1, k2⟩ := C22_decides h eps start _ g' hg' p hp hcf' (hr.2 hadj) (hl.2 hnlr) cl hem tokens hin s
  rw [hsen] at k1 k2
  refine ⟨fun hs => ?_, k2⟩
  obtain ⟨⟨n⟩, h1, h2⟩ := k1 hs
  obtain ⟨t, v, m, t', e1, -, -, e4, rfl⟩ := (htree _ _).1 h2
  exact ⟨t, v, m, t', e1, e4, h1⟩

end

/-! ## Optional parts -/

section
variable (h h₁ h₀ : HashOrder T) (eps opt a : T) (ps : List (Production T))
  (hn : NewSymbol eps ps opt) (ha : IsNonTerminal ps a)
  (g : Grammar T) (hg : Grammar.new h₁ eps a ps = .ok g)
include hn ha hg

/-- **C100**, optional parts. Add `opt → a` and `opt → eps` to a grammar with initial non-terminal `a`, with `opt`
new. The new grammar is accepted; its sentences are those of the old one and the empty one; it is left-recursive, or
has two equal non-terminals side by side, only if the old one is or has. -/
theorem C100_optional : (∃ g', Grammar.new h eps opt (Spec.optional eps opt a ps) = .ok g') ∧
    (∀ w, Sentence eps opt (Spec.optional eps opt a ps) w ↔ w = [] ∨ Sentence eps a ps w) ∧
    (NotLeftRecursive eps (Spec.optional eps opt a ps) ↔ NotLeftRecursive eps ps) ∧
    (NoAdjacentRepeat (Spec.optional eps opt a ps) ↔ NoAdjacentRepeat ps) := by
  have hw := (Grammar.grammarOf_of_new hg).wf
  exact ⟨(Grammar.new_eq_ok_iff h eps opt _).2 (Opt.wellFormed hn ha hw), fun w => Opt.sentence_iff hn ha hw,
    Opt.notLeftRecursive hn ha hw, Opt.noAdjacentRepeat hn⟩

variable (s0 m0 : T) (hf0 : Fresh eps ps s0 m0) (g0 : Grammar T)
  (hg0 : Grammar.new h₀ eps s0 (augment a s0 m0 ps) = .ok g0) (p0 : Parser σ L T) (sol0 : Option (Solver σ L T))
  (hp0 : Built h₀ g0 sol0 p0)
  (start stop : T) (hf : Fresh eps (Spec.optional eps opt a ps) start stop)
  (g' : Grammar T) (hg' : Grammar.new h eps start (augment opt start stop (Spec.optional eps opt a ps)) = .ok g')
  (solver : Option (Solver σ L T)) (p : Parser σ L T) (hp : Built h g' solver p)
include hf0 hg0 hp0 hf hg' hp

/-- **C100**, optional parts: with end markers, the table of the new grammar is free of conflicts iff that of the
old one is and the empty input is not already a sentence of the old one. -/
theorem C100_optional_conflict_free :
    ConflictFree p.transitions ↔ ConflictFree p0.transitions ∧ ¬ Sentence eps a ps [] := by
  have hw := (Grammar.grammarOf_of_new hg).wf
  have C0 := Context.augment hf0 ha
  have C1 := Opt.context hn ha hf hw
  have E := C1.toEmbeds
  have hfilo : ∀ x, IsNonTerminal ps x →
      (Spec.optional eps opt a ps).filter (fun r => r.input = x) = ps.filter (fun r => r.input = x) := by
    rintro x ⟨q, hq, rfl⟩
    refine filter_eq_of_embeds ⟨[⟨opt, [a]⟩, ⟨opt, [eps]⟩], [], by simp [Spec.optional], fun r hr e => ?_, by simp⟩
    have : r.input = opt := by
      simp only [List.mem_cons, List.not_mem_nil, or_false] at hr
      rcases hr with rfl | rfl <;> rfl
    exact (hn.2 q hq).1 (e.symm.trans this)
  have hno : IsNonTerminal (Spec.optional eps opt a ps) opt := Opt.isNonTerminal_iff.2 (.inl rfl)
  have hfil : ∀ x, IsNonTerminal ps x →
      (augment opt start stop (Spec.optional eps opt a ps)).filter (fun r => r.input = x) =
        ps.filter (fun r => r.input = x) :=
    fun x hx => (filter_augment hf (Opt.isNonTerminal_iff.2 (.inr hx))).trans (hfilo x hx)
  have hfil2 : (augment opt start stop (Spec.optional eps opt a ps)).filter (fun r => r.input = opt) =
      [⟨opt, [a]⟩, ⟨opt, [eps]⟩] := by
    rw [filter_augment hf hno]
    unfold Spec.optional
    rw [List.filter_cons_of_pos (by simp), List.filter_cons_of_pos (by simp), List.filter_eq_nil_iff.2]
    intro r hr
    simpa using (hn.2 r hr).1
  have hnt : ∀ {x}, IsNonTerminal (augment opt start stop (Spec.optional eps opt a ps)) x → x = start ∨ x = opt ∨
      IsNonTerminal ps x := by
    rintro x ⟨q, hq, rfl⟩
    rcases mem_augment.1 hq with rfl | hq
    · exact .inl rfl
    · exact .inr (Opt.isNonTerminal_iff.1 ⟨q, hq, rfl⟩)
  have hne : Sentence eps a ps [] ↔ Nullable eps ps a := ⟨fun k => k.1, fun k => ⟨k, by simp⟩⟩
  have hl2 : ∀ c, Transitions.Lead eps (augment opt start stop (Spec.optional eps opt a ps)) ⟨opt, [eps]⟩ c → c = stop := by
    rintro c (⟨-, k⟩ | ⟨x, t, e, -⟩)
    · exact Opt.follow_opt hn ha hf k
    · rw [Opt.rhs_eps] at e
      simp at e
  have hl2' : Transitions.Lead eps (augment opt start stop (Spec.optional eps opt a ps)) ⟨opt, [eps]⟩ stop :=
    .inl ⟨Opt.rhs_eps, followRule_stop hf hno⟩
  have hl1 : Transitions.Lead eps (augment opt start stop (Spec.optional eps opt a ps)) ⟨opt, [a]⟩ stop ↔
      Nullable eps ps a := by
    constructor
    · rintro (⟨e, -⟩ | ⟨x, t, e, k⟩)
      · rw [Opt.rhs_opt hw ha] at e
        simp at e
      · rw [Opt.rhs_opt hw ha] at e
        obtain ⟨rfl, -⟩ := List.cons.inj e
        rcases k with k | ⟨k, -⟩
        · obtain ⟨⟨⟨r, hr, ho⟩, -⟩, -⟩ := (E.canStart (E.old_nt ha) (.inl ha)).1 k
          exact absurd ho (hf.stop_unused r (Opt.mem_iff.2 (.inr (.inr hr)))).2
        · exact (E.nullable (E.old_nt ha)).1 k
    · exact fun k => .inr ⟨a, [], Opt.rhs_opt hw ha, .inr ⟨(E.nullable (E.old_nt ha)).2 k, C1.into stop rfl⟩⟩
  rw [hne]
  constructor
  · intro hcf
    constructor
    · refine conflictFree_of_le hg0 hp0 fun x hx c => ?_
      by_cases hxp : IsNonTerminal ps x
      · exact conflictFree_of_context C1 C0 hg' hg0 hp hp0
          (fun x hx => (filter_augment hf0 hx).trans (hfil x hx).symm)
          (fun x hx => mem_of_filter (filter_augment hf0 hx)) (fun c e r hr => e ▸ (hf0.stop_unused r hr).2) rfl hcf hxp c
      · obtain ⟨q, hq, rfl⟩ := hx
        rcases mem_augment.1 hq with rfl | hq
        · exact candidates_start_le hf0 hg0 hp0 c
        · exact absurd ⟨q, hq, rfl⟩ hxp
    · intro k
      have h1 := (conflictFree_iff _).1 hcf opt stop
      rw [candidates_two hg' hp hfil2 (hl1.2 k) hl2'] at h1
      omega
  · rintro ⟨hcf, hnul⟩
    refine conflictFree_of_le hg' hp fun x hx c => ?_
    rcases hnt hx with rfl | rfl | hxp
    · exact candidates_start_le hf hg' hp c
    · refine candidates_le_of_two hg' hp hfil2 ?_
      rintro ⟨k1, k2⟩
      obtain rfl := hl2 c k2
      exact hnul (hl1.1 k1)
    · exact conflictFree_of_context C0 C1 hg0 hg' hp0 hp
        (fun x hx => (hfil x hx).trans (filter_augment hf0 hx).symm)
        (fun x hx => mem_of_filter (hfil x hx))
        (fun c e r hr => e ▸ (hf.stop_unused r (Opt.mem_iff.2 (.inr (.inr hr)))).2) rfl hcf hxp c

end

section
variable (h h₁ h₀ : HashOrder T) (eps opt a : T) (ps : List (Production T))
  (hn : NewSymbol eps ps opt) (ha : IsNonTerminal ps a)
  (g : Grammar T) (hg : Grammar.new h₁ eps a ps = .ok g)
  (s0 m0 : T) (hf0 : Fresh eps ps s0 m0) (g0 : Grammar T)
  (hg0 : Grammar.new h₀ eps s0 (augment a s0 m0 ps) = .ok g0) (p0 : Parser σ L T) (sol0 : Option (Solver σ L T))
  (hp0 : Built h₀ g0 sol0 p0)
  (start stop : T) (hf : Fresh eps (Spec.optional eps opt a ps) start stop)
  (g' : Grammar T) (hg' : Grammar.new h eps start (augment opt start stop (Spec.optional eps opt a ps)) = .ok g')
  (p : Parser σ L T) (hp : Built h g' none p)
include hn ha hg hf0 hg0 hp0 hf hg' hp

/-- **C100**, optional parts, deciding. Let the old grammar be without left recursion and without two equal
non-terminals side by side, with an end marker free of conflicts, and without the empty sentence. With an end marker
behind it, an old sentence gives `Ok` with the old tree below `opt`, no tokens give `Ok` with `eps` below `opt`, and
any other input gives `Err`. -/
theorem C100_optional_decides (hcf : ConflictFree p0.transitions) (hnul : ¬ Sentence eps a ps [])
    (hnlr : NotLeftRecursive eps ps) (hadj : NoAdjacentRepeat ps) (lex : Option L) (s : σ) :
    (∀ (tokens : List (Token L T)) n, (∀ t ∈ tokens, t.tType ≠ stop) → IsTree eps ps a tokens n →
      Parses p (tokens ++ [⟨lex, stop⟩]) s (.ok ⟨.mk [.mk [n] ⟨none, opt⟩, .mk [] ⟨lex, stop⟩] ⟨none, start⟩⟩) s) ∧
    Parses p [⟨lex, stop⟩] s
      (.ok ⟨.mk [.mk [.mk [] ⟨none, eps⟩] ⟨none, opt⟩, .mk [] ⟨lex, stop⟩] ⟨none, start⟩⟩) s ∧
    (∀ tokens : List (Token L T), (∀ t ∈ tokens, t.tType ≠ stop) → tokens ≠ [] →
      ¬ Sentence eps a ps (tokens.map (·.tType)) → ∃ f s', Parses p (tokens ++ [⟨lex, stop⟩]) s (.err f) s') := by
  have hw := (Grammar.grammarOf_of_new hg).wf
  obtain ⟨⟨go, hgo⟩, hsen, hl, hr⟩ := C100_optional h h₁ eps opt a ps hn ha g hg
  have hcf' := (C100_optional_conflict_free h h₁ h₀ eps opt a ps hn ha g hg s0 m0 hf0 g0 hg0 p0 sol0 hp0
    start stop hf g' hg' none p hp).2 ⟨hcf, hnul⟩
  have hno : IsNonTerminal (Spec.optional eps opt a ps) opt := Opt.isNonTerminal_iff.2 (.inl rfl)
  have E := Opt.embeds hn (a := a)
  refine ⟨fun tokens n hns ht => ?_, ?_, fun tokens hns hne hno' => ?_⟩
  · refine augmented_returns hf hno hgo hg' hp hcf' (hr.2 hadj) (hl.2 hnlr) hns lex s
      (.node ⟨opt, [a]⟩ _ _ (Opt.mem_iff.2 (.inl rfl)) ?_)
    have := IsForest.cons a [] _ [] _ [] (E.tree_mono ht (E.old_nt ha)) .nil
    simpa using this
  · refine augmented_returns (tokens := []) hf hno hgo hg' hp hcf' (hr.2 hadj) (hl.2 hnlr) (by simp) lex s
      (.node ⟨opt, [eps]⟩ _ _ (Opt.mem_iff.2 (.inr (.inl rfl))) ?_)
    have := IsForest.cons (L := L) eps [] [] [] _ [] (IsTree.eps (ps := Spec.optional eps opt a ps)) .nil
    simpa using this
  · refine (C88_decides h h eps opt start stop _ hf hno go hgo g' hg' p hp hcf' (hr.2 hadj) tokens hns
      lex s (hl.2 hnlr)).2 fun k => ?_
    exact ((hsen _).1 k).elim (fun e => hne (List.map_eq_nil_iff.1 e)) hno'

end

/-! ## Lists with separators -/

section
variable (h h₁ h₀ : HashOrder T) (eps list rest sep a : T) (ps : List (Production T))
  (hs : Separators eps ps list rest sep) (ha : IsNonTerminal ps a)
  (g : Grammar T) (hg : Grammar.new h₁ eps a ps = .ok g)
include hs ha hg

/-- **C100**, lists. Add `list → a rest`, `rest → sep a rest` and `rest → eps` to a grammar with initial non-terminal
`a`, all three symbols new. The new grammar is accepted; its sentences are one or more sentences of the old one with
a `sep` between each two; it is left-recursive, or has two equal non-terminals side by side, only if the old one is
or has. -/
theorem C100_separated : (∃ g', Grammar.new h eps list (separated eps list rest sep a ps) = .ok g') ∧
    (∀ w, Sentence eps list (separated eps list rest sep a ps) w ↔
      ∃ (u : List T) (l : List (List T)), w = u ++ (l.map (sep :: ·)).flatten ∧ Sentence eps a ps u ∧
        ∀ v ∈ l, Sentence eps a ps v) ∧
    (NotLeftRecursive eps (separated eps list rest sep a ps) ↔ NotLeftRecursive eps ps) ∧
    (NoAdjacentRepeat (separated eps list rest sep a ps) ↔ NoAdjacentRepeat ps) := by
  have hw := (Grammar.grammarOf_of_new hg).wf
  exact ⟨(Grammar.new_eq_ok_iff h eps list _).2 (Sep.wellFormed hs ha hw), fun w => Sep.sentence_iff hs ha,
    Sep.notLeftRecursive hs ha, Sep.noAdjacentRepeat hs ha⟩

variable (s0 m0 : T) (hf0 : Fresh eps ps s0 m0) (g0 : Grammar T)
  (hg0 : Grammar.new h₀ eps s0 (augment a s0 m0 ps) = .ok g0) (p0 : Parser σ L T) (sol0 : Option (Solver σ L T))
  (hp0 : Built h₀ g0 sol0 p0)
  (start stop : T) (hf : Fresh eps (separated eps list rest sep a ps) start stop)
  (g' : Grammar T) (hg' : Grammar.new h eps start (augment list start stop (separated eps list rest sep a ps)) = .ok g')
  (solver : Option (Solver σ L T)) (p : Parser σ L T) (hp : Built h g' solver p)
include hf0 hg0 hp0 hf hg' hp

/-- **C100**, lists: with end markers, the table of the new grammar is free of conflicts iff that of the old one
is. -/
theorem C100_separated_conflict_free : ConflictFree p.transitions ↔ ConflictFree p0.transitions := by
  have hw := (Grammar.grammarOf_of_new hg).wf
  have C0 := Context.augment hf0 ha
  have C1 := Sep.context hs ha hf hw
  have E := C1.toEmbeds
  have hfilo : ∀ x, IsNonTerminal ps x →
      (separated eps list rest sep a ps).filter (fun r => r.input = x) = ps.filter (fun r => r.input = x) := by
    rintro x ⟨q, hq, rfl⟩
    refine filter_eq_of_embeds ⟨[⟨list, [a, rest]⟩, ⟨rest, [sep, a, rest]⟩, ⟨rest, [eps]⟩], [], by simp [separated],
      fun r hr e => ?_, by simp⟩
    have : r.input = list ∨ r.input = rest := by
      simp only [List.mem_cons, List.not_mem_nil, or_false] at hr
      rcases hr with rfl | rfl | rfl <;> simp
    rcases this with k | k
    · exact (hs.new_list.2 q hq).1 (e.symm.trans k)
    · exact (hs.new_rest.2 q hq).1 (e.symm.trans k)
  have hno : IsNonTerminal (separated eps list rest sep a ps) rest := ⟨_, Sep.mem2, rfl⟩
  have hnl : IsNonTerminal (separated eps list rest sep a ps) list := ⟨_, Sep.mem1, rfl⟩
  have hfil : ∀ x, IsNonTerminal ps x →
      (augment list start stop (separated eps list rest sep a ps)).filter (fun r => r.input = x) =
        ps.filter (fun r => r.input = x) :=
    fun x hx => (filter_augment hf (Sep.isNonTerminal_iff.2 (.inr (.inr hx)))).trans (hfilo x hx)
  have hfil1 : (augment list start stop (separated eps list rest sep a ps)).filter (fun r => r.input = list) =
      [⟨list, [a, rest]⟩] := by
    rw [filter_augment hf hnl]
    unfold separated
    rw [List.filter_cons_of_pos (by simp), List.filter_cons_of_neg (by simpa using hs.differ.1.symm),
      List.filter_cons_of_neg (by simpa using hs.differ.1.symm), List.filter_eq_nil_iff.2]
    intro r hr
    simpa using (hs.new_list.2 r hr).1
  have hfil2 : (augment list start stop (separated eps list rest sep a ps)).filter (fun r => r.input = rest) =
      [⟨rest, [sep, a, rest]⟩, ⟨rest, [eps]⟩] := by
    rw [filter_augment hf hno]
    unfold separated
    rw [List.filter_cons_of_neg (by simpa using hs.differ.1), List.filter_cons_of_pos (by simp),
      List.filter_cons_of_pos (by simp), List.filter_eq_nil_iff.2]
    intro r hr
    simpa using (hs.new_rest.2 r hr).1
  have hnt : ∀ {x}, IsNonTerminal (augment list start stop (separated eps list rest sep a ps)) x → x = start ∨
      x = list ∨ x = rest ∨ IsNonTerminal ps x := by
    rintro x ⟨q, hq, rfl⟩
    rcases mem_augment.1 hq with rfl | hq
    · exact .inl rfl
    · exact .inr (Sep.isNonTerminal_iff.1 ⟨q, hq, rfl⟩)
  have hst := Sep.sep_terminal' hs ha hf
  have hne : sep ≠ stop := fun e => (hf.stop_unused _ Sep.mem2).2 (by simp [← e])
  constructor
  · intro hcf
    refine conflictFree_of_le hg0 hp0 fun x hx c => ?_
    by_cases hxp : IsNonTerminal ps x
    · exact conflictFree_of_context C1 C0 hg' hg0 hp hp0
        (fun x hx => (filter_augment hf0 hx).trans (hfil x hx).symm)
        (fun x hx => mem_of_filter (filter_augment hf0 hx)) (fun c e r hr => e ▸ (hf0.stop_unused r hr).2)
        (c0 := stop) (.inr rfl) hcf hxp c
    · obtain ⟨q, hq, rfl⟩ := hx
      rcases mem_augment.1 hq with rfl | hq
      · exact candidates_start_le hf0 hg0 hp0 c
      · exact absurd ⟨q, hq, rfl⟩ hxp
  · intro hcf
    refine conflictFree_of_le hg' hp fun x hx c => ?_
    rcases hnt hx with rfl | rfl | rfl | hxp
    · exact candidates_start_le hf hg' hp c
    · refine (candidates_le hg' hp _ c).trans ?_
      rw [hfil1]
      simp
    · refine candidates_le_of_two hg' hp hfil2 ?_
      rintro ⟨k1, k2⟩
      rcases k1 with ⟨e, -⟩ | ⟨y, t, e, k1⟩
      · rw [Sep.rhs2 hs] at e
        simp at e
      · rw [Sep.rhs2 hs] at e
        obtain ⟨rfl, rfl⟩ := List.cons.inj e
        rcases k2 with ⟨-, k2⟩ | ⟨y, t, e, k2⟩
        · have hc := Sep.follow_rest hs ha hf k2
          rcases k1 with ⟨-, -, v, k1⟩ | ⟨k1, -⟩
          · have := Derives.terminal_eq hst.2 k1
            simp only [List.cons.injEq] at this
            exact hne (this.1.symm.trans hc)
          · have := Derives.terminal_eq hst.2 k1
            simp at this
        · rw [Sep.rhs3] at e
          simp at e
    · refine conflictFree_of_context C0 C1 hg0 hg' hp0 hp
        (fun x hx => (hfil x hx).trans (filter_augment hf0 hx).symm)
        (fun x hx => mem_of_filter (hfil x hx)) ?_ rfl hcf hxp c
      rintro c (rfl | rfl) r hr
      · exact (hs.new_sep.2 r hr).2
      · exact (hf.stop_unused r (Sep.mem_iff.2 (.inr (.inr (.inr hr))))).2

end

/-- Tokens over words with separators are in groups of tokens. -/
theorem exists_groups {sep : T} : ∀ (l : List (List T)) (tokens : List (Token L T)),
    tokens.map (·.tType) = (l.map (sep :: ·)).flatten →
    ∃ k : List (Token L T × List (Token L T)), tokens = (k.map fun x => x.1 :: x.2).flatten ∧
      (∀ x ∈ k, x.1.tType = sep) ∧ k.map (fun x => x.2.map (·.tType)) = l := by
  intro l
  induction l with
  | nil =>
    intro tokens e
    simp only [List.map_nil, List.flatten_nil, List.map_eq_nil_iff] at e
    exact ⟨[], by simp [e], by simp, rfl⟩
  | cons v l ih =>
    intro tokens e
    simp only [List.map_cons, List.flatten_cons, List.cons_append] at e
    obtain ⟨t, ts, rfl, e1, e2⟩ := List.map_eq_cons_iff.1 e
    obtain ⟨u, us, rfl, e3, e4⟩ := List.map_eq_append_iff.1 e2
    obtain ⟨k, rfl, k1, k2⟩ := ih us e4
    refine ⟨(t, u) :: k, by simp, ?_, by simp [e3, k2]⟩
    intro x hx
    rcases List.mem_cons.1 hx with rfl | hx
    · exact e1
    · exact k1 x hx

section
variable (h h₁ h₀ : HashOrder T) (eps list rest sep a : T) (ps : List (Production T))
  (hs : Separators eps ps list rest sep) (ha : IsNonTerminal ps a)
  (g : Grammar T) (hg : Grammar.new h₁ eps a ps = .ok g)
  (s0 m0 : T) (hf0 : Fresh eps ps s0 m0) (g0 : Grammar T)
  (hg0 : Grammar.new h₀ eps s0 (augment a s0 m0 ps) = .ok g0) (p0 : Parser σ L T) (sol0 : Option (Solver σ L T))
  (hp0 : Built h₀ g0 sol0 p0)
  (start stop : T) (hf : Fresh eps (separated eps list rest sep a ps) start stop)
  (g' : Grammar T) (hg' : Grammar.new h eps start (augment list start stop (separated eps list rest sep a ps)) = .ok g')
  (p : Parser σ L T) (hp : Built h g' none p)
include hs ha hg hf0 hg0 hp0 hf hg' hp

/-- **C100**, lists, deciding. Let the old grammar be without left recursion and without two equal non-terminals side
by side, and with an end marker free of conflicts. With an end marker behind it, an input gives `Ok` if it is made of
old sentences with a `sep` between each two: the tree has the old trees in it, in a chain to the right; and it gives
`Err` if it is not. -/
theorem C100_separated_decides (hcf : ConflictFree p0.transitions) (hnlr : NotLeftRecursive eps ps)
    (hadj : NoAdjacentRepeat ps) (tokens : List (Token L T)) (hns : ∀ t ∈ tokens, t.tType ≠ stop) (lex : Option L)
    (s : σ) :
    ((∃ (u : List T) (l : List (List T)), tokens.map (·.tType) = u ++ (l.map (sep :: ·)).flatten ∧ Sentence eps a ps u ∧
        ∀ v ∈ l, Sentence eps a ps v) →
      ∃ (u : List (Token L T)) (n : Node L T) (l : List (Token L T × List (Token L T) × Node L T)),
        tokens = u ++ (l.map fun x => x.1 :: x.2.1).flatten ∧ IsTree eps ps a u n ∧
        (∀ x ∈ l, x.1.tType = sep ∧ IsTree eps ps a x.2.1 x.2.2) ∧
        Parses p (tokens ++ [⟨lex, stop⟩]) s
          (.ok ⟨.mk [listTree eps list rest n (l.map fun x => (x.1, x.2.2)), .mk [] ⟨lex, stop⟩] ⟨none, start⟩⟩) s) ∧
    ((¬ ∃ (u : List T) (l : List (List T)), tokens.map (·.tType) = u ++ (l.map (sep :: ·)).flatten ∧
        Sentence eps a ps u ∧ ∀ v ∈ l, Sentence eps a ps v) →
      ∃ f s', Parses p (tokens ++ [⟨lex, stop⟩]) s (.err f) s') := by
  have hw := (Grammar.grammarOf_of_new hg).wf
  obtain ⟨⟨gl, hgl⟩, hsen, hl, hr⟩ := C100_separated h h₁ eps list rest sep a ps hs ha g hg
  have hcf' := (C100_separated_conflict_free h h₁ h₀ eps list rest sep a ps hs ha g hg s0 m0 hf0 g0 hg0 p0 sol0 hp0
    start stop hf g' hg' none p hp).2 hcf
  have hnl : IsNonTerminal (separated eps list rest sep a ps) list := ⟨_, Sep.mem1, rfl⟩
  constructor
  · rintro ⟨u, l, e, hu, hv⟩
    obtain ⟨tu, tr, rfl, e1, e2⟩ := List.map_eq_append_iff.1 e
    obtain ⟨k, rfl, k1, k2⟩ := exists_groups l tr e2
    rw [← e1] at hu
    obtain ⟨n, hn⟩ := Parser.tree_of_sentence hu
    have : ∃ l' : List (Token L T × List (Token L T) × Node L T), (l'.map fun x => (x.1, x.2.1)) = k ∧
        ∀ x ∈ l', x.1.tType = sep ∧ IsTree eps ps a x.2.1 x.2.2 := by
      have hk : ∀ x ∈ k, x.1.tType = sep ∧ Sentence eps a ps (x.2.map (·.tType)) := fun x hx =>
        ⟨k1 x hx, hv _ (k2 ▸ List.mem_map_of_mem hx)⟩
      clear * - hk
      induction k with
      | nil => exact ⟨[], rfl, by simp⟩
      | cons x k ih =>
        obtain ⟨l', h1, h2⟩ := ih fun y hy => hk y (by simp [hy])
        obtain ⟨n, hn⟩ := Parser.tree_of_sentence (hk x (by simp)).2
        refine ⟨(x.1, x.2, n) :: l', by simp [h1], ?_⟩
        intro y hy
        rcases List.mem_cons.1 hy with rfl | hy
        · exact ⟨(hk x (by simp)).1, hn⟩
        · exact h2 y hy
    obtain ⟨l', e3, hl'⟩ := this
    have e4 : (k.map fun x => x.1 :: x.2).flatten = (l'.map fun x => x.1 :: x.2.1).flatten := by
      rw [← e3, List.map_map]
      rfl
    rw [e4] at hns ⊢
    refine ⟨tu, n, l', rfl, hn, hl', ?_⟩
    exact augmented_returns hf hnl hgl hg' hp hcf' (hr.2 hadj) (hl.2 hnlr) hns lex s (Sep.tree_mk hs ha hn hl')
  · intro hno
    rw [← hsen] at hno
    exact (C88_decides h h eps list start stop _ hf hnl gl hgl g' hg' p hp hcf' (hr.2 hadj) tokens hns
      lex s (hl.2 hnlr)).2 hno

end

/-! ## Examples -/

/-- Elements `E → x | ( E )`: `E = 1, x = 10, ( = 11, ) = 12`. -/
def elementPs : List (Production Nat) := [⟨1, [10]⟩, ⟨1, [11, 1, 12]⟩]

/-- The hypotheses of C100 are met: elements with an end marker, in brackets, optional, and in lists. -/
theorem C100_example : ∃ g g0 gb go gs p0 pb po qs t1 t2 t3,
    IsNonTerminal elementPs 1 ∧ Grammar.new (HashOrder.id Nat) 0 1 elementPs = .ok g ∧ Fresh 0 elementPs 4 14 ∧
    Grammar.new (HashOrder.id Nat) 0 4 (augment 1 4 14 elementPs) = .ok g0 ∧
    Built (σ := Unit) (L := Unit) (HashOrder.id Nat) g0 none p0 ∧
    ConflictFree p0.transitions ∧ NotLeftRecursive 0 elementPs ∧ NoAdjacentRepeat elementPs ∧
    ¬ Sentence 0 1 elementPs [] ∧
    Brackets 0 elementPs 5 15 16 ∧
    Grammar.new (HashOrder.id Nat) 0 5 (bracketed 5 15 1 16 elementPs) = .ok gb ∧
    Built (σ := Unit) (L := Unit) (HashOrder.id Nat) gb none pb ∧
    Parses pb [⟨none, 15⟩, ⟨none, 11⟩, ⟨none, 10⟩, ⟨none, 12⟩, ⟨none, 16⟩] () (.ok t1) () ∧
    NewSymbol 0 elementPs 6 ∧ Fresh 0 (Spec.optional 0 6 1 elementPs) 4 14 ∧
    Grammar.new (HashOrder.id Nat) 0 4 (augment 6 4 14 (Spec.optional 0 6 1 elementPs)) = .ok go ∧
    Built (σ := Unit) (L := Unit) (HashOrder.id Nat) go none po ∧
    Parses po [⟨none, 14⟩] () (.ok t2) () ∧
    Separators 0 elementPs 2 3 13 ∧ Fresh 0 (separated 0 2 3 13 1 elementPs) 4 14 ∧
    Grammar.new (HashOrder.id Nat) 0 4 (augment 2 4 14 (separated 0 2 3 13 1 elementPs)) = .ok gs ∧
    Built (σ := Unit) (L := Unit) (HashOrder.id Nat) gs none qs ∧
    Parses qs [⟨none, 10⟩, ⟨none, 13⟩, ⟨none, 11⟩, ⟨none, 10⟩, ⟨none, 12⟩, ⟨none, 13⟩, ⟨none, 10⟩, ⟨none, 14⟩] ()
      (.ok t3) () := by
  obtain ⟨g, g0, gb, go, gs, p0, pb, po, qs, t1, t2, t3, hg, hg0, hp0, hgb, hpb, r1, hgo, hpo, r2, hgs, hps, r3, c0⟩ :
      ∃ g g0 gb go gs p0 pb po qs t1 t2 t3,
      Grammar.new (HashOrder.id Nat) 0 1 elementPs = .ok g ∧
      Grammar.new (HashOrder.id Nat) 0 4 (augment 1 4 14 elementPs) = .ok g0 ∧
      Built (σ := Unit) (L := Unit) (HashOrder.id Nat) g0 none p0 ∧
      Grammar.new (HashOrder.id Nat) 0 5 (bracketed 5 15 1 16 elementPs) = .ok gb ∧
      Built (σ := Unit) (L := Unit) (HashOrder.id Nat) gb none pb ∧
      Parses pb [⟨none, 15⟩, ⟨none, 11⟩, ⟨none, 10⟩, ⟨none, 12⟩, ⟨none, 16⟩] () (.ok t1) () ∧
      Grammar.new (HashOrder.id Nat) 0 4 (augment 6 4 14 (Spec.optional 0 6 1 elementPs)) = .ok go ∧
      Built (σ := Unit) (L := Unit) (HashOrder.id Nat) go none po ∧
      Parses po [⟨none, 14⟩] () (.ok t2) () ∧
      Grammar.new (HashOrder.id Nat) 0 4 (augment 2 4 14 (separated 0 2 3 13 1 elementPs)) = .ok gs ∧
      Built (σ := Unit) (L := Unit) (HashOrder.id Nat) gs none qs ∧
      Parses qs [⟨none, 10⟩, ⟨none, 13⟩, ⟨none, 11⟩, ⟨none, 10⟩, ⟨none, 12⟩, ⟨none, 13⟩, ⟨none, 10⟩, ⟨none, 14⟩] ()
        (.ok t3) () ∧
      (∀ x ∈ (augment 1 4 14 elementPs).map (·.input), ∀ a ∈ (augment 1 4 14 elementPs).flatMap (·.output),
        ((p0.transitions.getProductions x a).getD []).length ≤ 1) :=
    ⟨_, _, _, _, _, _, _, _, _, _, _, _, rfl, rfl, Parser.built_of_eval (n := 10) rfl, rfl,
      Parser.built_of_eval (n := 10) rfl, Parser.parse_returns (n := 40) rfl, rfl,
      Parser.built_of_eval (n := 10) rfl, Parser.parse_returns (n := 40) rfl, rfl,
      Parser.built_of_eval (n := 10) rfl, Parser.parse_returns (n := 40) rfl, by decide⟩
  refine ⟨g, g0, gb, go, gs, p0, pb, po, qs, t1, t2, t3, ⟨⟨1, [10]⟩, by decide, rfl⟩, hg,
    ⟨by decide, by decide, by decide, by decide, by decide⟩, hg0, hp0, conflictFree_of_check hg0 hp0 c0,
    notLeftRecursive_of_rank (fun _ => false) (fun x => if x = 1 then 1 else 0) (by decide),
    noAdjacentRepeat_of (by decide), ?_,
    ⟨⟨by decide, by decide⟩, ⟨by decide, by decide⟩, by decide, by unfold IsNonTerminal; decide, by decide⟩, hgb, hpb, r1,
    ⟨by decide, by decide⟩, ⟨by decide, by decide, by decide, by decide, by decide⟩, hgo, hpo, r2,
    ⟨⟨by decide, by decide⟩, ⟨by decide, by decide⟩, ⟨by decide, by decide⟩, by decide⟩,
    ⟨by decide, by decide, by decide, by decide, by decide⟩, hgs, hps, r3⟩
  rintro ⟨k, -⟩
  cases k with
  | step hs hd =>
    obtain ⟨q, hq, -, rfl⟩ := Step.single hs
    have : q = ⟨1, [10]⟩ ∨ q = ⟨1, [11, 1, 12]⟩ := by simpa [elementPs] using hq
    have hnt : ∀ {x : Nat} {l : List Nat}, ¬ IsNonTerminal elementPs x → ¬ Derives 0 elementPs (x :: l) [] := by
      intro x l hx hd
      obtain ⟨c1, c2, e, k1, -⟩ := Derives.cons_split hd
      rw [Derives.terminal_eq hx k1] at e
      simp at e
    rcases this with rfl | rfl
    · exact hnt (x := 10) (l := []) (by unfold IsNonTerminal; decide) hd
    · exact hnt (x := 11) (l := [1, 12]) (by unfold IsNonTerminal; decide) hd

end Verif.Props
