import Verif.Proof.Compose
import Verif.Props.Unite

/-!
# Property C98: one grammar after another one, and a grammar repeated
-/

set_option linter.unusedSectionVars false

namespace Verif.Props

open Verif.Spec Verif.Examples

variable {σ L T : Type} [DecidableEq T]

/-- If the lookaheads of the productions of `ps` stay, so do the cells of its symbols. -/
theorem cells_of_embeds {τ : Type} {h h' : HashOrder T} {eps init init' : T} {ps all : List (Production T)}
    (E : Embeds ps all) (hlead : ∀ q ∈ ps, ∀ c, Transitions.Lead eps all q c ↔ Transitions.Lead eps ps q c)
    (hfil : ∀ x, IsNonTerminal ps x → all.filter (fun r => r.input = x) = ps.filter (fun r => r.input = x))
    {g g' : Grammar T} (hg : Grammar.new h eps init ps = .ok g)
    (hg' : Grammar.new h' eps init' all = .ok g') {solver : Option (Solver σ L T)}
    {solver' : Option (Solver τ L T)} {p : Parser σ L T} {p' : Parser τ L T} (hp : Built h g solver p)
    (hp' : Built h' g' solver' p') {x : T} (hn : IsNonTerminal ps x) (a : T) :
    candidates p'.transitions x a = candidates p.transitions x a := by
  obtain ⟨ff, hff, e⟩ := (Parser.built_iff hg).1 hp
  obtain ⟨ff', hff', e'⟩ := (Parser.built_iff hg').1 hp'
  obtain ⟨S, hS, hL⟩ := table_spec hg hff (Parser.from_eq_ok e).2.2
  obtain ⟨S', hS', hL'⟩ := table_spec hg' hff' (Parser.from_eq_ok e').2.2
  have hn' : IsNonTerminal all x := (E.isNonTerminal (E.old_nt hn)).2 hn
  have hfil' : all.filter (fun r => r.input = x ∧ a ∈ S' r) = ps.filter (fun r => r.input = x ∧ a ∈ S r) := by
    have hf : ∀ l : List (Production T), l.filter (fun r => r.input = x ∧ a ∈ S' r) =
        (l.filter (fun r => r.input = x)).filter (fun r => a ∈ S' r) := by
      intro l
      rw [List.filter_filter]
      apply List.filter_congr
      intro r _
      rw [Bool.and_comm, ← Bool.decide_and]
    rw [hf, hfil x hn, ← hf]
    apply List.filter_congr
    intro r hr
    rw [decide_eq_decide, hL r hr, hL' r (E.sub r hr), hlead r hr]
  have key : ¬ IsTerminal ps a → ps.filter (fun r => r.input = x ∧ a ∈ S r) = [] := by
    intro hc
    rw [List.filter_eq_nil_iff]
    intro r hr hd
    simp only [decide_eq_true_eq] at hd
    exact hc (lead_isTerminal ((hL r hr a).1 hd.2))
  unfold candidates
  by_cases ha : IsTerminal ps a
  · have ha' : IsTerminal all a := by
      obtain ⟨⟨r, hr, ho⟩, hna⟩ := ha
      exact ⟨⟨r, E.sub r hr, ho⟩, by rwa [E.isNonTerminal (E.old_output hr ho)]⟩
    rw [hS.some x a hn ha, hS'.some x a hn' ha', hfil']
  · rw [hS.none x a fun h => ha h.2]
    by_cases ha' : IsTerminal all a
    · rw [hS'.some x a hn' ha', hfil', key ha]
      rfl
    · rw [hS'.none x a fun h => ha' h.2]

/-- A symbol with one production has at most that one in each cell. -/
theorem candidates_le {h : HashOrder T} {eps init : T} {ps : List (Production T)} {g : Grammar T}
    (hg : Grammar.new h eps init ps = .ok g) {solver : Option (Solver σ L T)} {p : Parser σ L T}
    (hp : Built h g solver p) (x c : T) :
    (candidates p.transitions x c).length ≤ (ps.filter (fun r => r.input = x)).length := by
  obtain ⟨ff, hff, e⟩ := (Parser.built_iff hg).1 hp
  obtain ⟨S, hS, -⟩ := table_spec hg hff (Parser.from_eq_ok e).2.2
  unfold candidates
  by_cases hc : IsNonTerminal ps x ∧ IsTerminal ps c
  · rw [hS.some x c hc.1 hc.2, Option.getD_some, List.length_map]
    apply List.Sublist.length_le
    apply List.monotone_filter_right
    intro r hr
    simp only [decide_eq_true_eq] at hr ⊢
    exact hr.1
  · rw [hS.none x c hc]; simp

theorem filter_eq_of_embeds {ps : List (Production T)} {all : List (Production T)} {x : T}
    (h : ∃ u v, all = u ++ ps ++ v ∧ (∀ r ∈ u, r.input ≠ x) ∧ ∀ r ∈ v, r.input ≠ x) :
    all.filter (fun r => r.input = x) = ps.filter (fun r => r.input = x) := by
  obtain ⟨u, v, rfl, h1, h2⟩ := h
  rw [List.filter_append, List.filter_append, filter_input_nil h1, filter_input_nil h2]
  simp

/-- With an end marker, each tree of the old grammar is returned for its tokens. -/
theorem augmented_returns {h h' : HashOrder T} {eps init start stop : T} {ps : List (Production T)}
    (hf : Fresh eps ps start stop) (hinit : IsNonTerminal ps init)
    {g : Grammar T} (hg : Grammar.new h eps init ps = .ok g)
    {g' : Grammar T} (hg' : Grammar.new h' eps start (augment init start stop ps) = .ok g')
    {p' : Parser σ L T} (hp' : Built h' g' none p') (hcf : ConflictFree p'.transitions) (hadj : NoAdjacentRepeat ps)
    (hnlr : NotLeftRecursive eps ps)
    {tokens : List (Token L T)} (hns : ∀ t ∈ tokens, t.tType ≠ stop) (lex : Option L) (s : σ)
    {n : Node L T} (hn : IsTree eps ps init tokens n) :
    Parses p' (tokens ++ [⟨lex, stop⟩]) s (.ok ⟨.mk [n, .mk [] ⟨lex, stop⟩] ⟨none, start⟩⟩) s := by
  have hwf := (Grammar.grammarOf_of_new hg).wf
  have hnode : ∀ n : Node L T, IsTree eps ps init tokens n → IsTree eps (augment init start stop ps) start
      (tokens ++ [⟨lex, stop⟩]) (.mk [n, .mk [] ⟨lex, stop⟩] ⟨none, start⟩) := by
    intro n hn
    refine .node ⟨start, [init, stop]⟩ _ _ (mem_augment.2 (.inl rfl)) ?_
    have h3 : IsForest (L := L) eps (augment init start stop ps) [stop] [⟨lex, stop⟩] [.mk [] ⟨lex, stop⟩] := by
      have := IsForest.cons stop [] [⟨lex, stop⟩] [] (.mk [] ⟨lex, stop⟩) []
        (IsTree.leaf (L := L) ⟨lex, stop⟩ hf.stop_terminal hf.stop_ne_eps) (IsForest.nil (L := L) (eps := eps)
          (ps := augment init start stop ps))
      simpa using this
    exact .cons init [stop] _ _ _ _ (isTree_augment hf hn (hf.ne_start hinit)) h3
  have hs : Sentence eps init ps (tokens.map (·.tType)) := by
    refine ⟨hn.derives hwf ?_, ?_⟩
    · rintro rfl
      obtain ⟨q, hq, hqe⟩ := hinit
      exact (hwf q hq).1 hqe
    · intro a ha
      obtain ⟨t, ht, rfl⟩ := List.mem_map.1 ha
      exact Parser.IsTree.terminals hn (.inl hinit) t ht
  obtain ⟨m, hm, hr⟩ := (C88_decides h h' eps init start stop ps hf hinit g hg g' hg' p' hp' hcf hadj tokens hns
    lex s hnlr).1 hs
  have := C37_unambiguous h' eps start _ g' hg' p' hp' hcf ((hf.noAdjacentRepeat hinit).2 hadj) stop
    (hf.endMarked hinit) s _ _ _ (hnode n hn) (hnode m hm)
  rw [this]
  exact hr

/-! ## One after another -/

section
variable (h h₁ h₂ : HashOrder T) (eps start a b : T) (ps qs : List (Production T))
  (ha : Apart eps start a b ps qs) (ga gb : Grammar T) (hga : Grammar.new h₁ eps a ps = .ok ga)
  (hgb : Grammar.new h₂ eps b qs = .ok gb)
include ha hga hgb

/-- **C98.** Put two grammars with different non-terminals behind each other, with `start → a b` for a new symbol
`start`. The new grammar is accepted, its sentences are a sentence of the first one and then a sentence of the
second one, and it is left-recursive, or has two equal non-terminals side by side, only if one of the two is or
has. -/
theorem C98_sequence : (∃ g, Grammar.new h eps start (chain start a b ps qs) = .ok g) ∧
    (∀ w, Sentence eps start (chain start a b ps qs) w ↔
      ∃ u v, w = u ++ v ∧ Sentence eps a ps u ∧ Sentence eps b qs v) ∧
    (NotLeftRecursive eps (chain start a b ps qs) ↔ NotLeftRecursive eps ps ∧ NotLeftRecursive eps qs) ∧
    (NoAdjacentRepeat (chain start a b ps qs) ↔ NoAdjacentRepeat ps ∧ NoAdjacentRepeat qs) := by
  have w1 := (Grammar.grammarOf_of_new hga).wf
  have w2 := (Grammar.grammarOf_of_new hgb).wf
  exact ⟨(Grammar.new_eq_ok_iff h eps start _).2 (Chain.wellFormed ha w1 w2), fun w => Chain.sentence_iff ha w1,
    Chain.notLeftRecursive ha w1, Chain.noAdjacentRepeat ha⟩

variable (g : Grammar T) (hg : Grammar.new h eps start (chain start a b ps qs) = .ok g)
  (solver : Option (Solver σ L T)) (p : Parser σ L T) (hp : Built h g solver p)
  (sa : Option (Solver σ L T)) (pa : Parser σ L T) (hpa : Built h₁ ga sa pa)
  (sb : Option (Solver σ L T)) (pb : Parser σ L T) (hpb : Built h₂ gb sb pb)

section
include hg hp hpa hpb

/-- **C98**, the table. The cells of the second grammar stay as they are. If the first grammar is end-marked, so
do its cells, and the new table is free of conflicts iff the two old ones are. -/
theorem C98_sequence_cells :
    (∀ x c, IsNonTerminal qs x → candidates p.transitions x c = candidates pb.transitions x c) ∧
    ∀ e, EndMarked eps a e ps →
      (∀ x c, IsNonTerminal ps x → candidates p.transitions x c = candidates pa.transitions x c) ∧
      (ConflictFree p.transitions ↔ ConflictFree pa.transitions ∧ ConflictFree pb.transitions) := by
  have hR : ∀ x c, IsNonTerminal qs x → candidates p.transitions x c = candidates pb.transitions x c := by
    rintro x c ⟨r, hr, rfl⟩
    refine ((cells_of_unused (Chain.unused_right ha) (fun r => Chain.mem_right) (fun A hA => ?_) hgb hg hpb hp).1
      _ c ?_).symm
    · have h1 : start ≠ A := hA ⟨start, [a, b]⟩ (by simp)
      have h2 := filter_input_nil (l := ps) (A := A) fun u hu => hA u (by simp [hu])
      simp [chain, h1, h2]
    · exact fun u hu => ((Chain.unused_right ha u hu).2.1 r hr).1.symm
  refine ⟨hR, fun e hm => ?_⟩
  have hL : ∀ x c, IsNonTerminal ps x → candidates p.transitions x c = candidates pa.transitions x c := by
    intro x c hx
    refine cells_of_embeds (Chain.left ha) (fun q hq c => (Chain.left ha).lead (Chain.uses_left ha) hm hq c) ?_
      hga hg hpa hp hx c
    rintro x ⟨r, hr, rfl⟩
    refine filter_eq_of_embeds ⟨[⟨start, [a, b]⟩], qs, rfl, ?_, ?_⟩
    · intro u hu
      rw [List.mem_singleton.1 hu]
      exact (ha.new_left r hr).1.symm
    · exact fun u hu => (ha.apart r hr u hu).1.symm
  refine ⟨hL, ?_⟩
  rw [conflictFree_iff, conflictFree_iff, conflictFree_iff]
  constructor
  · intro hcf
    refine ⟨fun x c => ?_, fun x c => ?_⟩
    · by_cases hx : IsNonTerminal ps x
      · rw [← hL x c hx]; exact hcf x c
      · rw [candidates_nil hga hpa hx]; simp
    · by_cases hx : IsNonTerminal qs x
      · rw [← hR x c hx]; exact hcf x c
      · rw [candidates_nil hgb hpb hx]; simp
  · rintro ⟨h1, h2⟩ x c
    by_cases hx : IsNonTerminal ps x
    · rw [hL x c hx]; exact h1 x c
    by_cases hx' : IsNonTerminal qs x
    · rw [hR x c hx']; exact h2 x c
    refine (candidates_le hg hp x c).trans ?_
    have e1 := filter_input_nil (l := ps) (A := x) fun u hu e => hx ⟨u, hu, e⟩
    have e2 := filter_input_nil (l := qs) (A := x) fun u hu e => hx' ⟨u, hu, e⟩
    simp only [chain, List.filter_cons, List.filter_append, e1, e2, List.append_nil]
    split <;> simp

end

variable (h' : HashOrder T) (first stop : T) (hf : Fresh eps (chain start a b ps qs) first stop) (g' : Grammar T)
  (hg' : Grammar.new h' eps first (augment start first stop (chain start a b ps qs)) = .ok g')
  (p' : Parser σ L T) (hp' : Built h' g' none p')
include hf hg' hp'

/-- **C98**, with an end marker behind. If both grammars are end-marked and their tables are free of conflicts, so
is the table for one after the other. -/
theorem C98_sequence_marked (e₁ e₂ : T) (hm₁ : EndMarked eps a e₁ ps) (hm₂ : EndMarked eps b e₂ qs)
    (hpa : Built h₁ ga sa pa) (hpb : Built h₂ gb sb pb) (hca : ConflictFree pa.transitions)
    (hcb : ConflictFree pb.transitions) : ConflictFree p'.transitions := by
  rw [conflictFree_iff] at *
  have hnl : ¬ IsNonTerminal ps start := fun ⟨r, hr, e⟩ => (ha.new_left r hr).1 e
  have hnr : ¬ IsNonTerminal qs start := fun ⟨r, hr, e⟩ => (ha.new_right r hr).1 e
  have El := (Chain.left ha).augment (x := start) hf
  have Er := (Chain.right ha).augment (x := start) hf
  have hL : ∀ x c, IsNonTerminal ps x → candidates p'.transitions x c = candidates pa.transitions x c := by
    intro x c hx
    refine cells_of_embeds El (fun q hq c => El.lead
      (Embeds.Uses.augment (Chain.left ha) hf (Chain.uses_left ha) fun h => absurd h hnl) hm₁ hq c) ?_
      hga hg' hpa hp' hx c
    rintro x ⟨r, hr, rfl⟩
    refine filter_eq_of_embeds ⟨[⟨first, [start, stop]⟩, ⟨start, [a, b]⟩], qs, rfl, ?_, ?_⟩
    · intro u hu
      simp only [List.mem_cons, List.not_mem_nil, or_false] at hu
      rcases hu with rfl | rfl
      · exact (hf.start_unused r (Chain.mem_iff.2 (.inr (.inl hr)))).1.symm
      · exact (ha.new_left r hr).1.symm
    · exact fun u hu => (ha.apart r hr u hu).1.symm
  have hR : ∀ x c, IsNonTerminal qs x → candidates p'.transitions x c = candidates pb.transitions x c := by
    intro x c hx
    refine cells_of_embeds Er (fun q hq c => Er.lead
      (Embeds.Uses.augment (Chain.right ha) hf (Chain.uses_right ha) fun h => absurd h hnr) hm₂ hq c) ?_
      hgb hg' hpb hp' hx c
    rintro x ⟨r, hr, rfl⟩
    refine filter_eq_of_embeds ⟨⟨first, [start, stop]⟩ :: ⟨start, [a, b]⟩ :: ps, [], by simp [augment, chain], ?_, ?_⟩
    · intro u hu
      simp only [List.mem_cons] at hu
      rcases hu with rfl | rfl | hu
      · exact (hf.start_unused r (Chain.mem_iff.2 (.inr (.inr hr)))).1.symm
      · exact (ha.new_right r hr).1.symm
      · exact (ha.apart u hu r hr).1
    · simp
  intro x c
  by_cases hx : IsNonTerminal ps x
  · rw [hL x c hx]; exact hca x c
  by_cases hx' : IsNonTerminal qs x
  · rw [hR x c hx']; exact hcb x c
  refine (candidates_le hg' hp' x c).trans ?_
  have e1 := filter_input_nil (l := ps) (A := x) fun u hu e => hx ⟨u, hu, e⟩
  have e2 := filter_input_nil (l := qs) (A := x) fun u hu e => hx' ⟨u, hu, e⟩
  have hne : start ≠ first := (hf.start_unused ⟨start, [a, b]⟩ (Chain.mem_iff.2 (.inl rfl))).1
  simp only [augment, chain, List.filter_cons, List.filter_append, e1, e2, List.append_nil]
  by_cases h1 : first = x
  · subst h1
    simp [hne]
  · simp only [h1, decide_false, Bool.false_eq_true, if_false]
    split <;> simp

/-- **C98**, deciding. Let neither grammar be left-recursive or have two equal non-terminals side by side, and let the
table for one after the other be free of conflicts. With the end marker behind it, an input gives `Ok` with the
two trees beside each other if it is the tokens of a tree of the first grammar and then those of a tree of the
second one, and `Err` if it is not a sentence of the first one followed by a sentence of the second one. -/
theorem C98_sequence_decides (hcf : ConflictFree p'.transitions) (hl₁ : NotLeftRecursive eps ps)
    (hl₂ : NotLeftRecursive eps qs) (hr₁ : NoAdjacentRepeat ps) (hr₂ : NoAdjacentRepeat qs)
    (tokens : List (Token L T)) (hns : ∀ t ∈ tokens, t.tType ≠ stop) (lex : Option L) (s : σ) :
    (∀ u v na nb, tokens = u ++ v → IsTree eps ps a u na → IsTree eps qs b v nb →
      Parses p' (tokens ++ [⟨lex, stop⟩]) s
        (.ok ⟨.mk [.mk [na, nb] ⟨none, start⟩, .mk [] ⟨lex, stop⟩] ⟨none, first⟩⟩) s) ∧
    ((¬ ∃ u v, tokens = u ++ v ∧ Sentence eps a ps (u.map (·.tType)) ∧ Sentence eps b qs (v.map (·.tType))) →
      ∃ f s', Parses p' (tokens ++ [⟨lex, stop⟩]) s (.err f) s') := by
  obtain ⟨⟨g, hg⟩, hsen, hl, hr⟩ := C98_sequence h' h₁ h₂ eps start a b ps qs ha ga gb hga hgb
  have hst : IsNonTerminal (chain start a b ps qs) start := Chain.isNonTerminal_iff.2 (.inl rfl)
  refine ⟨?_, fun hno => ?_⟩
  · rintro u v na nb rfl h1 h2
    exact augmented_returns hf hst hg hg' hp' hcf (hr.2 ⟨hr₁, hr₂⟩) (hl.2 ⟨hl₁, hl₂⟩) hns lex s
      (Chain.tree_mk ha h1 h2)
  · refine (C88_decides h' h' eps start first stop _ hf hst g hg g' hg' p' hp' hcf (hr.2 ⟨hr₁, hr₂⟩) tokens hns
      lex s (hl.2 ⟨hl₁, hl₂⟩)).2 fun hs => hno ?_
    obtain ⟨u, v, e, h1, h2⟩ := (hsen _).1 hs
    obtain ⟨u', v', rfl, rfl, rfl⟩ := List.map_eq_append_iff.1 e
    exact ⟨u', v', rfl, h1, h2⟩

end

/-! ## Repeated -/

section
variable (h₁ h' : HashOrder T) (eps many a : T) (ps : List (Production T)) (hn : NewSymbol eps ps many)
  (ha : IsNonTerminal ps a) (ga : Grammar T) (hga : Grammar.new h₁ eps a ps = .ok ga)
include hn ha hga

/-- **C98**, repeating. Add `many → a many` and `many → ε` to a grammar with initial symbol `a`, for a new symbol
`many`. The new grammar is accepted, its sentences are any number of sentences of the old one behind each
other, it has two equal non-terminals side by side only if the old one has, and it is left-recursive iff the old one
is or `a` can be empty. -/
theorem C98_repeat : (∃ g, Grammar.new h' eps many (repeated eps many a ps) = .ok g) ∧
    (∀ w, Sentence eps many (repeated eps many a ps) w ↔
      ∃ l : List (List T), w = l.flatten ∧ ∀ u ∈ l, Sentence eps a ps u) ∧
    (NotLeftRecursive eps (repeated eps many a ps) ↔ NotLeftRecursive eps ps ∧ ¬ Sentence eps a ps []) ∧
    (NoAdjacentRepeat (repeated eps many a ps) ↔ NoAdjacentRepeat ps) := by
  have w1 := (Grammar.grammarOf_of_new hga).wf
  refine ⟨(Grammar.new_eq_ok_iff h' eps many _).2 (Repeated.wellFormed hn ha w1),
    fun w => Repeated.sentence_iff hn ha, ?_, Repeated.noAdjacentRepeat hn ha⟩
  rw [Repeated.notLeftRecursive hn ha]
  have : Nullable eps ps a ↔ Sentence eps a ps [] := ⟨fun h => ⟨h, by simp⟩, fun h => h.1⟩
  rw [this]

variable (start stop : T) (hf : Fresh eps (repeated eps many a ps) start stop) (g' : Grammar T)
  (hg' : Grammar.new h' eps start (augment many start stop (repeated eps many a ps)) = .ok g')
  (p' : Parser σ L T) (hp' : Built h' g' none p')
include hf hg' hp'

/-- **C98**, repeating with an end marker behind. If the old grammar is end-marked, like statements that end with
a semicolon, and its table is free of conflicts, so is the new table. -/
theorem C98_repeat_marked (e : T) (hm : EndMarked eps a e ps) (sa : Option (Solver σ L T)) (pa : Parser σ L T)
    (hpa : Built h₁ ga sa pa) (hca : ConflictFree pa.transitions) : ConflictFree p'.transitions := by
  have w1 := (Grammar.grammarOf_of_new hga).wf
  rw [conflictFree_iff] at *
  have hnm : ¬ IsNonTerminal ps many := fun ⟨r, hr, e⟩ => (hn.2 r hr).1 e
  have E := Repeated.embeds hn (a := a)
  have E' := E.augment (x := many) hf
  have hu := Embeds.Uses.augment E hf (Repeated.uses hn ha w1) fun h => absurd h hnm
  have hne : many ≠ start := (hf.start_unused ⟨many, [eps]⟩ (Repeated.mem_iff.2 (.inr (.inl rfl)))).1
  have hL : ∀ x c, IsNonTerminal ps x → candidates p'.transitions x c = candidates pa.transitions x c := by
    intro x c hx
    refine cells_of_embeds E' (fun q hq c => E'.lead hu hm hq c) ?_ hga hg' hpa hp' hx c
    rintro x ⟨r, hr, rfl⟩
    refine filter_eq_of_embeds ⟨[⟨start, [many, stop]⟩, ⟨many, [a, many]⟩, ⟨many, [eps]⟩], [],
      by simp [augment, repeated], ?_, by simp⟩
    intro u hu
    simp only [List.mem_cons, List.not_mem_nil, or_false] at hu
    rcases hu with rfl | rfl | rfl
    · exact (hf.start_unused r (Repeated.mem_iff.2 (.inr (.inr hr)))).1.symm
    · exact (hn.2 r hr).1.symm
    · exact (hn.2 r hr).1.symm
  intro x c
  by_cases hx : IsNonTerminal ps x
  · rw [hL x c hx]; exact hca x c
  have e1 := filter_input_nil (l := ps) (A := x) fun u hu e => hx ⟨u, hu, e⟩
  by_cases hxm : x = many
  · subst hxm
    obtain ⟨ff, hff, e0⟩ := (Parser.built_iff hg').1 hp'
    obtain ⟨S, hS, hSL⟩ := table_spec hg' hff (Parser.from_eq_ok e0).2.2
    unfold candidates
    by_cases hc : IsNonTerminal (augment x start stop (repeated eps x a ps)) x ∧
        IsTerminal (augment x start stop (repeated eps x a ps)) c
    · rw [hS.some x c hc.1 hc.2, Option.getD_some, List.length_map]
      have hm1 : (⟨x, [a, x]⟩ : Production T) ∈ augment x start stop (repeated eps x a ps) :=
        mem_augment.2 (.inr (Repeated.mem_iff.2 (.inl rfl)))
      have hm2 : (⟨x, [eps]⟩ : Production T) ∈ augment x start stop (repeated eps x a ps) :=
        mem_augment.2 (.inr (Repeated.mem_iff.2 (.inr (.inl rfl))))
      have hboth : ¬ (c ∈ S ⟨x, [a, x]⟩ ∧ c ∈ S ⟨x, [eps]⟩) := by
        rintro ⟨k1, k2⟩
        rw [hSL _ hm1] at k1
        rw [hSL _ hm2] at k2
        have hstop : c = stop := by
          rcases k2 with ⟨_, k2⟩ | ⟨y, t, er, _⟩
          · exact Repeated.followRule_many hn ha w1 hf k2
          · simp [rhs] at er
        have hoa := E'.old_nt ha
        rcases k1 with ⟨er, _⟩ | ⟨y, t, er, k1⟩
        · rw [Repeated.rhs_many hn] at er
          simp at er
        · rw [Repeated.rhs_many hn] at er
          simp only [List.cons.injEq] at er
          obtain ⟨rfl, rfl⟩ := er
          rcases k1 with k1 | ⟨k1, _⟩
          · obtain ⟨⟨⟨r, hr, ho⟩, _⟩, _⟩ := (E'.canStart hoa (.inl ha)).1 k1
            exact (hf.stop_unused r (E.sub r hr)).2 (hstop ▸ ho)
          · exact not_nullable_of_endMarked hm ha ((E'.nullable hoa).1 k1)
      have e2 : ps.filter (fun r => r.input = x ∧ c ∈ S r) = [] := by
        rw [List.filter_eq_nil_iff]
        intro r hr hd
        simp only [decide_eq_true_eq] at hd
        exact (hn.2 r hr).1 hd.1
      simp only [augment, repeated, List.filter_cons, e2, hne.symm, false_and, decide_false, Bool.false_eq_true,
        if_false, true_and, decide_eq_true_eq]
      by_cases k1 : c ∈ S ⟨x, [a, x]⟩
      · rw [if_pos k1, if_neg fun k2 => hboth ⟨k1, k2⟩]
        simp
      · rw [if_neg k1]
        split <;> simp
    · rw [hS.none x c hc]; simp
  · refine (candidates_le hg' hp' x c).trans ?_
    have hxm' : ¬ many = x := fun e => hxm e.symm
    simp only [augment, repeated, List.filter_cons, e1, hxm', decide_false, Bool.false_eq_true, if_false]
    split <;> simp

/-- **C98**, deciding repetitions. Let the old grammar be without left recursion and without two equal non-terminals
side by side, let `a` not be empty, and let the new table be free of conflicts. With the end marker behind it, an
input gives `Ok` with the trees in a list, if it is the tokens of trees of the old grammar behind each other, and
`Err` if it is not a number of sentences of the old grammar behind each other. -/
theorem C98_repeat_decides (hcf : ConflictFree p'.transitions) (hl : NotLeftRecursive eps ps)
    (he : ¬ Sentence eps a ps []) (hr : NoAdjacentRepeat ps)
    (tokens : List (Token L T)) (hns : ∀ t ∈ tokens, t.tType ≠ stop) (lex : Option L) (s : σ) :
    (∀ (l : List (List (Token L T))) (ns : List (Node L T)), tokens = l.flatten →
      List.Forall₂ (fun u n => IsTree eps ps a u n) l ns →
      Parses p' (tokens ++ [⟨lex, stop⟩]) s
        (.ok ⟨.mk [manyTree eps many ns, .mk [] ⟨lex, stop⟩] ⟨none, start⟩⟩) s) ∧
    ((¬ ∃ l : List (List (Token L T)), tokens = l.flatten ∧ ∀ u ∈ l, Sentence eps a ps (u.map (·.tType))) →
      ∃ f s', Parses p' (tokens ++ [⟨lex, stop⟩]) s (.err f) s') := by
  obtain ⟨⟨g, hg⟩, hsen, hl', hr'⟩ := C98_repeat h₁ h' eps many a ps hn ha ga hga
  have w1 := (Grammar.grammarOf_of_new hga).wf
  have hst : IsNonTerminal (repeated eps many a ps) many := Repeated.isNonTerminal_iff.2 (.inl rfl)
  refine ⟨?_, fun hno => ?_⟩
  · rintro l ns rfl h1
    exact augmented_returns hf hst hg hg' hp' hcf (hr'.2 hr) (hl'.2 ⟨hl, he⟩) hns lex s (Repeated.tree_mk hn ha h1)
  · refine (C88_decides h' h' eps many start stop _ hf hst g hg g' hg' p' hp' hcf (hr'.2 hr) tokens hns
      lex s (hl'.2 ⟨hl, he⟩)).2 fun hs => hno ?_
    obtain ⟨n, hn'⟩ := Parser.tree_of_sentence hs
    obtain ⟨l, ns, rfl, rfl, h2⟩ := Repeated.tree hn ha w1 hn'
    refine ⟨l, rfl, fun u hu => ?_⟩
    clear hns hno hs hn'
    induction h2 with
    | nil => simp at hu
    | cons k1 _ ih =>
      rcases List.mem_cons.1 hu with rfl | hu
      · refine ⟨k1.derives w1 ?_, ?_⟩
        · rintro rfl
          obtain ⟨q, hq, hqe⟩ := ha
          exact (w1 q hq).1 hqe
        · intro c hc
          obtain ⟨t, ht, rfl⟩ := List.mem_map.1 hc
          exact Parser.IsTree.terminals k1 (.inl ha) t ht
      · exact ih hu

/-- **C98**, statement lists. If the old grammar is end-marked and without left recursion and without two equal
non-terminals side by side, and its table is free of conflicts, then the new parser needs no further condition: it
decides which inputs are statements behind each other. -/
theorem C98_statements (e : T) (hm : EndMarked eps a e ps) (sa : Option (Solver σ L T)) (pa : Parser σ L T)
    (hpa : Built h₁ ga sa pa) (hca : ConflictFree pa.transitions) (hl : NotLeftRecursive eps ps)
    (hr : NoAdjacentRepeat ps) (tokens : List (Token L T)) (hns : ∀ t ∈ tokens, t.tType ≠ stop) (lex : Option L)
    (s : σ) :
    (∀ (l : List (List (Token L T))) (ns : List (Node L T)), tokens = l.flatten →
      List.Forall₂ (fun u n => IsTree eps ps a u n) l ns →
      Parses p' (tokens ++ [⟨lex, stop⟩]) s
        (.ok ⟨.mk [manyTree eps many ns, .mk [] ⟨lex, stop⟩] ⟨none, start⟩⟩) s) ∧
    ((¬ ∃ l : List (List (Token L T)), tokens = l.flatten ∧ ∀ u ∈ l, Sentence eps a ps (u.map (·.tType))) →
      ∃ f s', Parses p' (tokens ++ [⟨lex, stop⟩]) s (.err f) s') :=
  C98_repeat_decides h₁ h' eps many a ps hn ha ga hga start stop hf g' hg' p' hp'
    (C98_repeat_marked h₁ h' eps many a ps hn ha ga hga start stop hf g' hg' p' hp' e hm sa pa hpa hca) hl
    (fun h => not_nullable_of_endMarked hm ha h.1) hr tokens hns lex s

end

/-- Statements `S → a = E ;`, `E → a R`, `R → + a R | ε`, with `S = 1, E = 2, R = 3`,
`a = 10, = is 11, ; is 12, + is 13`. -/
def assignPs : List (Production Nat) := [⟨1, [10, 11, 2, 12]⟩, ⟨2, [10, 3]⟩, ⟨3, [13, 10, 3]⟩, ⟨3, [0]⟩]

/-- Blocks `B → b C e`, `C → c C | ε`, with `B = 6, C = 7, b = 14, e = 15, c = 10`. -/
def blockPs : List (Production Nat) := [⟨6, [14, 7, 15]⟩, ⟨7, [10, 7]⟩, ⟨7, [0]⟩]

theorem assignPs_endMarked : EndMarked 0 1 12 assignPs where
  ne_eps := by decide
  terminal := by unfold IsNonTerminal; decide
  initial_once := by decide
  initial_ends := by
    intro p hp e
    have : p = ⟨1, [10, 11, 2, 12]⟩ := by
      revert p
      decide
    subst this
    exact ⟨[10, 11, 2], rfl, by decide⟩
  only_there := by decide

theorem blockPs_endMarked : EndMarked 0 6 15 blockPs where
  ne_eps := by decide
  terminal := by unfold IsNonTerminal; decide
  initial_once := by decide
  initial_ends := by
    intro p hp e
    have : p = ⟨6, [14, 7, 15]⟩ := by
      revert p
      decide
    subst this
    exact ⟨[14, 7], rfl, by decide⟩
  only_there := by decide

theorem noAdjacentRepeat_of {ps : List (Production Nat)}
    (h : ∀ p ∈ ps, ∀ i < p.output.length, p.output[i]? ≠ p.output[i + 1]?) : NoAdjacentRepeat ps := by
  intro p hp u x v he _
  exact h p hp u.length (by rw [he]; simp) (by rw [he]; simp)

/-- The hypotheses of the theorems on sequences are met: a statement and then a block. -/
theorem C98_sequence_example : ∃ ga gb g g' pa pb p p' tree,
    Apart 0 8 1 6 assignPs blockPs ∧ Grammar.new (HashOrder.id Nat) 0 1 assignPs = .ok ga ∧
    Grammar.new (HashOrder.id Nat) 0 6 blockPs = .ok gb ∧
    Grammar.new (HashOrder.id Nat) 0 8 (chain 8 1 6 assignPs blockPs) = .ok g ∧
    Fresh 0 (chain 8 1 6 assignPs blockPs) 9 16 ∧
    Grammar.new (HashOrder.id Nat) 0 9 (augment 8 9 16 (chain 8 1 6 assignPs blockPs)) = .ok g' ∧
    Built (σ := Unit) (L := Unit) (HashOrder.id Nat) ga none pa ∧
    Built (σ := Unit) (L := Unit) (HashOrder.id Nat) gb none pb ∧
    Built (σ := Unit) (L := Unit) (HashOrder.id Nat) g none p ∧
    Built (σ := Unit) (L := Unit) (HashOrder.id Nat) g' none p' ∧
    EndMarked 0 1 12 assignPs ∧ EndMarked 0 6 15 blockPs ∧ ConflictFree pa.transitions ∧ ConflictFree pb.transitions ∧
    NotLeftRecursive 0 assignPs ∧ NotLeftRecursive 0 blockPs ∧ NoAdjacentRepeat assignPs ∧ NoAdjacentRepeat blockPs ∧
    Parses p' [⟨none, 10⟩, ⟨none, 11⟩, ⟨none, 10⟩, ⟨none, 13⟩, ⟨none, 10⟩, ⟨none, 12⟩, ⟨none, 14⟩, ⟨none, 10⟩,
      ⟨none, 15⟩, ⟨none, 16⟩] () (.ok tree) () := by
  obtain ⟨ga, gb, g, g', pa, pb, p, p', tree, hga, hgb, hg, hg', hpa, hpb, hp, hp', hr, c1, c2⟩ :
      ∃ ga gb g g' pa pb p p' tree,
      Grammar.new (HashOrder.id Nat) 0 1 assignPs = .ok ga ∧
      Grammar.new (HashOrder.id Nat) 0 6 blockPs = .ok gb ∧
      Grammar.new (HashOrder.id Nat) 0 8 (chain 8 1 6 assignPs blockPs) = .ok g ∧
      Grammar.new (HashOrder.id Nat) 0 9 (augment 8 9 16 (chain 8 1 6 assignPs blockPs)) = .ok g' ∧
      Built (σ := Unit) (L := Unit) (HashOrder.id Nat) ga none pa ∧
      Built (σ := Unit) (L := Unit) (HashOrder.id Nat) gb none pb ∧
      Built (σ := Unit) (L := Unit) (HashOrder.id Nat) g none p ∧
      Built (σ := Unit) (L := Unit) (HashOrder.id Nat) g' none p' ∧
      Parses p' [⟨none, 10⟩, ⟨none, 11⟩, ⟨none, 10⟩, ⟨none, 13⟩, ⟨none, 10⟩, ⟨none, 12⟩, ⟨none, 14⟩, ⟨none, 10⟩,
        ⟨none, 15⟩, ⟨none, 16⟩] () (.ok tree) () ∧
      (∀ x ∈ assignPs.map (·.input), ∀ a ∈ assignPs.flatMap (·.output),
        ((pa.transitions.getProductions x a).getD []).length ≤ 1) ∧
      (∀ x ∈ blockPs.map (·.input), ∀ a ∈ blockPs.flatMap (·.output),
        ((pb.transitions.getProductions x a).getD []).length ≤ 1) :=
    ⟨_, _, _, _, _, _, _, _, _, rfl, rfl, rfl, rfl, Parser.built_of_eval (n := 10) rfl,
      Parser.built_of_eval (n := 10) rfl, Parser.built_of_eval (n := 10) rfl, Parser.built_of_eval (n := 10) rfl,
      Parser.parse_returns (n := 40) rfl, by decide, by decide⟩
  refine ⟨ga, gb, g, g', pa, pb, p, p', tree, ?_, hga, hgb, hg,
    ⟨by decide, by decide, by decide, by decide, by decide⟩, hg', hpa, hpb, hp, hp', assignPs_endMarked,
    blockPs_endMarked, conflictFree_of_check hga hpa c1, conflictFree_of_check hgb hpb c2, ?_, ?_,
    noAdjacentRepeat_of (by decide), noAdjacentRepeat_of (by decide), hr⟩
  · exact ⟨⟨⟨1, [10, 11, 2, 12]⟩, by decide, rfl⟩, ⟨⟨6, [14, 7, 15]⟩, by decide, rfl⟩, by decide, by decide,
      by decide, by decide⟩
  · exact notLeftRecursive_of_rank (fun x => x == 3) (fun x => if x < 10 then 1 else 0) (by decide)
  · exact notLeftRecursive_of_rank (fun x => x == 7) (fun x => if x < 10 then 1 else 0) (by decide)

/-- The hypotheses of the theorems on repetition are met: two statements. -/
theorem C98_repeat_example : ∃ ga g' pa p' tree,
    NewSymbol 0 assignPs 4 ∧ IsNonTerminal assignPs 1 ∧ Grammar.new (HashOrder.id Nat) 0 1 assignPs = .ok ga ∧
    Fresh 0 (repeated 0 4 1 assignPs) 5 16 ∧
    Grammar.new (HashOrder.id Nat) 0 5 (augment 4 5 16 (repeated 0 4 1 assignPs)) = .ok g' ∧
    Built (σ := Unit) (L := Unit) (HashOrder.id Nat) ga none pa ∧
    Built (σ := Unit) (L := Unit) (HashOrder.id Nat) g' none p' ∧
    EndMarked 0 1 12 assignPs ∧ ConflictFree pa.transitions ∧ NotLeftRecursive 0 assignPs ∧ NoAdjacentRepeat assignPs ∧
    ¬ Sentence 0 1 assignPs [] ∧
    Parses p' [⟨none, 10⟩, ⟨none, 11⟩, ⟨none, 10⟩, ⟨none, 13⟩, ⟨none, 10⟩, ⟨none, 12⟩, ⟨none, 10⟩, ⟨none, 11⟩,
      ⟨none, 10⟩, ⟨none, 12⟩, ⟨none, 16⟩] () (.ok tree) () := by
  obtain ⟨ga, g', pa, p', tree, hga, hg', hpa, hp', hr, c1⟩ :
      ∃ ga g' pa p' tree,
      Grammar.new (HashOrder.id Nat) 0 1 assignPs = .ok ga ∧
      Grammar.new (HashOrder.id Nat) 0 5 (augment 4 5 16 (repeated 0 4 1 assignPs)) = .ok g' ∧
      Built (σ := Unit) (L := Unit) (HashOrder.id Nat) ga none pa ∧
      Built (σ := Unit) (L := Unit) (HashOrder.id Nat) g' none p' ∧
      Parses p' [⟨none, 10⟩, ⟨none, 11⟩, ⟨none, 10⟩, ⟨none, 13⟩, ⟨none, 10⟩, ⟨none, 12⟩, ⟨none, 10⟩, ⟨none, 11⟩,
        ⟨none, 10⟩, ⟨none, 12⟩, ⟨none, 16⟩] () (.ok tree) () ∧
      (∀ x ∈ assignPs.map (·.input), ∀ a ∈ assignPs.flatMap (·.output),
        ((pa.transitions.getProductions x a).getD []).length ≤ 1) :=
    ⟨_, _, _, _, _, rfl, rfl, Parser.built_of_eval (n := 10) rfl, Parser.built_of_eval (n := 10) rfl,
      Parser.parse_returns (n := 40) rfl, by decide⟩
  have hnt : IsNonTerminal assignPs 1 := ⟨⟨1, [10, 11, 2, 12]⟩, by decide, rfl⟩
  refine ⟨ga, g', pa, p', tree, ⟨by decide, by decide⟩, hnt, hga,
    ⟨by decide, by decide, by decide, by decide, by decide⟩, hg', hpa, hp', assignPs_endMarked,
    conflictFree_of_check hga hpa c1, ?_, noAdjacentRepeat_of (by decide),
    fun h => not_nullable_of_endMarked assignPs_endMarked hnt h.1, hr⟩
  exact notLeftRecursive_of_rank (fun x => x == 3) (fun x => if x < 10 then 1 else 0) (by decide)

end Verif.Props
