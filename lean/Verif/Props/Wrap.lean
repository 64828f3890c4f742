import Verif.Proof.Wrap
import Verif.Props.LL1Grammar
import Verif.Props.Grammar
import Verif.Props.Supplied
import Verif.Props.Reduced

/-!
# Property C86: every LL(1) grammar can be rewritten so that the parser decides its language
-/

set_option linter.unusedSectionVars false

namespace Verif.Props

open Verif.Spec Verif.Examples Wrapped

variable {σ L T : Type} [DecidableEq T]

/-- These conditions imply that no terminal predicts two productions of a symbol. -/
theorem _root_.Verif.Spec.LL1FromAll.isLL1 {eps : T} {ps : List (Production T)} (h : LL1FromAll eps ps) : IsLL1 eps ps := by
  refine List.Pairwise.imp ?_ h
  rintro p q hpq hin a ⟨⟨ht, -, h1⟩, -, -, h2⟩
  have H := hpq hin
  rcases h1 with h1 | ⟨h1, hf⟩ <;> rcases h2 with h2 | ⟨h2, hf2⟩
  · exact H.first a ht.2 ⟨h1, h2⟩
  · exact H.beta a (hin ▸ hf2) h2 h1
  · exact H.alpha a hf h1 h2
  · exact H.empty ⟨h1, h2⟩

theorem wellFormed_of_new {h : HashOrder T} {eps init : T} {ps : List (Production T)} {g : Grammar T}
    (hg : Grammar.new h eps init ps = .ok g) : WellFormed eps ps := by
  have := (C01_new_returns_iff h eps init ps).1 ⟨g, hg⟩
  intro p hp
  have hn : ¬ (p.input = eps ∨ p.output = [] ∨ (1 < p.output.length ∧ eps ∈ p.output)) :=
    fun hc => this ⟨p, hp, hc⟩
  simp only [not_or, not_and] at hn
  refine ⟨hn.1, hn.2.1, fun he => ?_⟩
  have h1 := hn.2.2
  have h2 := List.length_pos_of_mem he
  by_contra hc
  exact h1 (by omega) he

/-- `ContextFreeGrammar::new` accepts the rewritten grammar. -/
theorem wrapped_accepted {h : HashOrder T} {eps init : T} {ps : List (Production T)} {g : Grammar T}
    (hg : Grammar.new h eps init ps = .ok g) (hi : IsNonTerminal ps init) (k : HashOrder (Wrapped T)) :
    ∃ g', Grammar.new k (old eps) start (wrapped eps init ps) = .ok g' := by
  rw [C01_new_returns_iff]
  rintro ⟨q, hq, hc⟩
  have hw := wellFormed_wrapped (wellFormed_of_new hg) hi q hq
  rcases hc with hc | hc | ⟨hc, he⟩
  · exact hw.1 hc
  · exact hw.2.1 hc
  · have := hw.2.2 he
    omega

/-- The table of the rewritten grammar of an LL(1) grammar has no conflicts. -/
theorem wrapped_conflictFree {eps init : T} {ps : List (Production T)} (hw : WellFormed eps ps)
    (hll : LL1FromAll eps ps) {k : HashOrder (Wrapped T)} {g : Grammar (Wrapped T)}
    (hg : Grammar.new k (old eps) start (wrapped eps init ps) = .ok g) {p : Parser σ L (Wrapped T)}
    (hp : Built k g none p) : ConflictFree p.transitions := by
  obtain ⟨ff, hff, e⟩ := (Parser.built_iff hg).1 hp
  have ht := (Parser.from_eq_ok e).2.2
  obtain ⟨t, h1, h2, h3, h4⟩ := C12_table_cells k (old eps) start _ g hg ff hff
  rw [ht] at h1
  cases h1
  -- what is in a cell of `A → alt q`
  have hcell : ∀ q ∈ ps, ∀ a l, p.transitions.getProductions (old q.input) a = some l →
      ⟨old q.input, [alt q]⟩ ∈ l → IsTerminal (wrapped eps init ps) a →
      (∃ x, a = old x ∧ ¬ IsNonTerminal ps x ∧
        ((∃ v, Derives eps ps (rhs eps q) (x :: v)) ∨
          (Derives eps ps (rhs eps q) [] ∧ CanFollow eps ps q.input x))) ∨
      (a = stop ∧ Derives eps ps (rhs eps q) []) := by
    intro q hq a l hl hql hta
    have hmem : (⟨old q.input, [alt q]⟩ : Production (Wrapped T)) ∈ wrapped eps init ps :=
      mem_wrapped.2 (.inr (.inl ⟨q, hq, rfl⟩))
    rcases (C14_table_exact k (old eps) start _ g hg ff hff _ ht _ hmem a).1 ⟨l, hl, hql⟩ with
      ⟨h, -⟩ | ⟨x, r, hx, -, h⟩
    · simp at h
    simp only [List.cons.injEq] at hx
    obtain ⟨rfl, rfl⟩ := hx
    have hnull : Nullable (old eps) (wrapped eps init ps) (alt q) → Derives eps ps (rhs eps q) [] := by
      intro hn
      have := (meanings_derives hn).1
      simpa [meanings, meaning] using this
    rcases wrapped_terminal hw hta with rfl | ⟨x, rfl, hx⟩
    · refine .inr ⟨rfl, ?_⟩
      rcases h with ⟨-, -, v, hd⟩ | ⟨hn, -⟩
      · exact absurd rfl (no_new hd (by simp) stop (by simp)).2
      · exact hnull hn
    · refine .inl ⟨x, rfl, hx, ?_⟩
      rcases h with ⟨-, -, v, hd⟩ | ⟨hn, s, hs, ha⟩
      · have := (meanings_derives hd).1
        rw [meanings_cons, meanings_cons] at this
        simp only [meaning, meanings, List.flatMap_nil, List.append_nil] at this
        exact .inl ⟨_, this⟩
      · obtain ⟨h5, h6, h7⟩ := C08_follow_sound k (old eps) start _ g hg ff hff _ _ s hs ha
        exact .inr ⟨hnull hn, wrapped_follow hw ⟨h5, h6, h7⟩⟩
  -- no two productions of the list are in one cell
  have hpair : (wrapped eps init ps).Pairwise (fun q q' => q.input = q'.input → ∀ a l,
      p.transitions.getProductions q.input a = some l → q ∈ l → q' ∈ l → False) := by
    unfold wrapped
    rw [List.pairwise_cons, List.pairwise_append, List.pairwise_append]
    refine ⟨?_, ?_, ⟨?_, ?_, ?_⟩, ?_⟩
    · intro q hq hin
      simp only [List.mem_append, List.mem_map] at hq
      rcases hq with ⟨_, _, rfl⟩ | ⟨_, _, rfl⟩ | ⟨_, _, rfl⟩ <;> simp at hin
    · rw [List.pairwise_map]
      rw [LL1FromAll, List.pairwise_iff_forall_sublist] at hll
      rw [List.pairwise_iff_forall_sublist]
      intro q q' hsub hin a l hl hq hq'
      simp only [old.injEq] at hin
      have hta := ((h2 _ _).1 (by rw [hl]; rfl)).2
      have H := hll hsub hin
      have c1 := hcell q (hsub.subset (by simp)) a l hl hq hta
      have c2 := hcell q' (hsub.subset (by simp)) a l (by rw [← hin]; exact hl) hq' hta
      rcases c1 with ⟨x, rfl, hx, c1⟩ | ⟨rfl, c1⟩
      · rcases c2 with ⟨x', hx', -, c2⟩ | ⟨hs, -⟩
        · cases hx'
          rcases c1 with c1 | ⟨c1, f1⟩ <;> rcases c2 with c2 | ⟨c2, f2⟩
          · exact H.first x hx ⟨c1, c2⟩
          · exact H.beta x (hin ▸ f2) c2 c1
          · exact H.alpha x f1 c1 c2
          · exact H.empty ⟨c1, c2⟩
        · cases hs
      · rcases c2 with ⟨x', hx', -, c2⟩ | ⟨-, c2⟩
        · cases hx'
        · exact H.empty ⟨c1, c2⟩
    · rw [List.pairwise_map]
      refine List.Pairwise.imp ?_ (List.nodup_dedup ps)
      intro q q' hne hin
      simp only [alt.injEq] at hin
      exact absurd hin hne
    · rw [List.pairwise_map]
      refine List.Pairwise.imp ?_ ((List.nodup_dedup _).filter _)
      intro q q' hne hin
      simp only [copy.injEq] at hin
      exact absurd hin hne
    · intro q hq q' hq' hin
      simp only [List.mem_map] at hq hq'
      obtain ⟨_, _, rfl⟩ := hq
      obtain ⟨_, _, rfl⟩ := hq'
      simp at hin
    · intro q hq q' hq' hin
      simp only [List.mem_append, List.mem_map] at hq hq'
      obtain ⟨_, _, rfl⟩ := hq
      rcases hq' with ⟨_, _, rfl⟩ | ⟨_, _, rfl⟩ <;> simp at hin
  intro A a l hl
  match l, hl with
  | [], _ => simp
  | [_], _ => simp
  | q :: q' :: l, hl =>
    exfalso
    have hfil := h3 _ _ _ hl
    have hsub' : (q :: q' :: l).Sublist ((wrapped eps init ps).filter (fun r => r.input = A)) := by
      conv_lhs => rw [hfil]
      exact List.filter_sublist
    have hall : ∀ r ∈ q :: q' :: l, r ∈ wrapped eps init ps ∧ r.input = A := by
      intro r hr
      simpa using hsub'.subset hr
    have hsub : [q, q'].Sublist (wrapped eps init ps) := by
      refine List.Sublist.trans ?_ (hsub'.trans List.filter_sublist)
      simp
    rw [List.pairwise_iff_forall_sublist] at hpair
    refine hpair hsub (by rw [(hall q (by simp)).2, (hall q' (by simp)).2]) a _
      (by rw [(hall q (by simp)).2]; exact hl) (by simp) (by simp)

/-- **C86**, for grammars that may have useless symbols: take any grammar that is accepted by
`ContextFreeGrammar::new`, LL(1) from every non-terminal and not left-recursive. Then the conclusion of
`C86_every_ll1_grammar`, below, holds. -/
theorem C86_with_useless_symbols (h : HashOrder T) (eps init : T) (ps : List (Production T))
    (g : Grammar T) (hg : Grammar.new h eps init ps = .ok g) (hi : IsNonTerminal ps init)
    (hll : LL1FromAll eps ps) (hnlr : NotLeftRecursive eps ps) (k : HashOrder (Wrapped T)) :
    ∃ g', Grammar.new k (old eps) start (wrapped eps init ps) = .ok g' ∧
      ∃ p : Parser σ L (Wrapped T), Built k g' none p ∧ ∀ (tokens : List (Token L T)) (s : σ),
        (Sentence eps init ps (tokens.map (·.tType)) →
          ∃ tree n, Parses p (wrapTokens tokens) s (.ok tree) s ∧ unwrap tree.root = [n] ∧
            IsTree eps ps init tokens n) ∧
        (¬ Sentence eps init ps (tokens.map (·.tType)) →
          ∃ f s', Parses p (wrapTokens tokens) s (.err f) s') := by
  have hw := wellFormed_of_new hg
  obtain ⟨g', hg'⟩ := wrapped_accepted hg hi k
  obtain ⟨p, hp⟩ := Parser.built_exists (σ := σ) (L := L) hg' none
  refine ⟨g', hg', p, hp, fun tokens s => ?_⟩
  have hin : EndsWith stop (wrapTokens tokens) :=
    ⟨_, _, rfl, rfl, by
      intro u hu
      simp only [List.mem_map] at hu
      obtain ⟨t, -, rfl⟩ := hu
      simp⟩
  have hmap : (wrapTokens tokens).map (·.tType) = (tokens.map (·.tType)).map old ++ [stop] := by
    simp [wrapTokens, List.map_map, Function.comp_def]
  obtain ⟨h1, h2⟩ := C22_decides k (old eps) start _ g' hg' p hp (wrapped_conflictFree hw hll hg' hp)
    wrapped_noAdjacentRepeat (wrapped_notLeftRecursive hnlr) stop wrapped_endMarked (wrapTokens tokens) hin s
  rw [hmap, wrapped_sentence hw hi] at h1 h2
  refine ⟨fun hs => ?_, h2⟩
  obtain ⟨tree, hr, htree⟩ := h1 hs
  have hf := unwrap_tree hw htree (by trivial)
  rw [unwrapTokens_wrap] at hf
  have hone : ∀ m, IsForest eps ps [init] tokens m → ∃ n, m = [n] ∧ IsTree eps ps init tokens n := by
    intro m hm
    cases hm with
    | cons x xs w w' n ns hn hns =>
      cases hns
      exact ⟨n, rfl, by simpa using hn⟩
  obtain ⟨n, hu, hn⟩ := hone _ hf
  exact ⟨tree, n, hr, hu, hn⟩

/-- **C86**, left recursion: a grammar that is LL(1) and whose non-terminals all derive terminal strings is not
left-recursive. Unlike C49 this needs no end marker. -/
theorem C86_not_left_recursive (eps : T) (ps : List (Production T)) (hw : WellFormed eps ps)
    (hll : LL1FromAll eps ps) (hprod : ∀ x, IsNonTerminal ps x → Productive eps ps x) :
    NotLeftRecursive eps ps := by
  refine notLeftRecursive_of_ll1 hw hll.isLL1 hprod fun x v _ => .inr ?_
  intro p hp q hq hpx hqx hne ⟨h1, h2⟩
  have hsymm : ∀ {p q : Production T}, (p.input = q.input →
      ¬ (Derives eps ps (rhs eps p) [] ∧ Derives eps ps (rhs eps q) [])) → (q.input = p.input →
      ¬ (Derives eps ps (rhs eps q) [] ∧ Derives eps ps (rhs eps p) [])) :=
    fun h e hh => h e.symm ⟨hh.2, hh.1⟩
  have : Std.Symm (fun p q : Production T => p.input = q.input →
      ¬ (Derives eps ps (rhs eps p) [] ∧ Derives eps ps (rhs eps q) [])) := ⟨fun _ _ h => hsymm h⟩
  have hll' : ps.Pairwise (fun p q => p.input = q.input →
      ¬ (Derives eps ps (rhs eps p) [] ∧ Derives eps ps (rhs eps q) [])) :=
    List.Pairwise.imp (fun h e => (h e).empty) hll
  exact (List.Pairwise.forall hll' hp hq hne) (hpx.trans hqx.symm) ⟨h1, h2⟩

/-- In a grammar without useless symbols, LL(1) as in the textbook is LL(1) from every non-terminal. -/
theorem _root_.Verif.Spec.TextbookLL1.fromAll {eps init : T} {ps : List (Production T)} (h : TextbookLL1 eps init ps)
    (hred : Reduced eps init ps) : LL1FromAll eps ps := by
  have hfol : ∀ x a, CanFollow eps ps x a → CanFollowFrom eps ps init x a := by
    rintro x a ⟨h1, h2, n, u, v, hn, hd⟩
    obtain ⟨u', v', hd'⟩ := (hred n hn).1
    refine ⟨h1, h2, u' ++ u, v ++ v', hd'.trans ?_⟩
    have := hd.context u' v'
    simpa using this
  refine List.Pairwise.imp ?_ h
  intro p q hpq he
  have H := hpq he
  exact ⟨H.first, H.empty, fun a ha => H.beta a (hfol _ _ ha), fun a ha => H.alpha a (hfol _ _ ha)⟩

/-- **C86.** Take any grammar without useless symbols that is accepted by `ContextFreeGrammar::new` and is
LL(1) as in the textbook; nothing else is asked of it (no end marker, no restriction on nullable, equal or
left-recursive symbols). Then `new` accepts the rewritten grammar, and for every token sequence, also the
empty one, with an end marker appended, the parser of the rewritten grammar returns `Ok` if the sequence is a
sentence of the original grammar, and the tree returned is, without the new nodes, a parse tree of the
sequence; it returns `Err` if not. -/
theorem C86_every_ll1_grammar (h : HashOrder T) (eps init : T) (ps : List (Production T))
    (g : Grammar T) (hg : Grammar.new h eps init ps = .ok g) (hi : IsNonTerminal ps init)
    (hll : TextbookLL1 eps init ps) (hred : Reduced eps init ps) (k : HashOrder (Wrapped T)) :
    ∃ g', Grammar.new k (old eps) start (wrapped eps init ps) = .ok g' ∧
      ∃ p : Parser σ L (Wrapped T), Built k g' none p ∧ ∀ (tokens : List (Token L T)) (s : σ),
        (Sentence eps init ps (tokens.map (·.tType)) →
          ∃ tree n, Parses p (wrapTokens tokens) s (.ok tree) s ∧ unwrap tree.root = [n] ∧
            IsTree eps ps init tokens n) ∧
        (¬ Sentence eps init ps (tokens.map (·.tType)) →
          ∃ f s', Parses p (wrapTokens tokens) s (.err f) s') :=
  C86_with_useless_symbols h eps init ps g hg hi (hll.fromAll hred)
    (C86_not_left_recursive eps ps (wellFormed_of_new hg) (hll.fromAll hred) fun x hx => (hred x hx).2) k

/-! ## The hypotheses can be met -/

/-- The terminals a string can begin with, from FIRST sets. -/
def startList (ff : FirstFollow T) (eps : T) : List T → List T
  | [] => []
  | x :: r => (ff.getFirstSymbols x).getD [] ++
      if eps ∈ (ff.getFirstSymbols x).getD [] then startList ff eps r else []

/-- Whether a string can vanish, from FIRST sets. -/
def vanishes (ff : FirstFollow T) (eps : T) (l : List T) : Bool :=
  l.all fun x => eps ∈ (ff.getFirstSymbols x).getD []

/-- It is enough to compare lists made from sets that obey the rules. -/
theorem ll1FromAll_of_check {eps : T} {ps : List (Production T)} {ff : FirstFollow T} (hw : WellFormed eps ps)
    (hob : ObeysRules eps ps ff)
    (hall : ps.Pairwise (fun p q => p.input = q.input →
      (∀ a ∈ startList ff eps (rhs eps p), a ≠ eps → a ∉ startList ff eps (rhs eps q)) ∧
      ¬ (vanishes ff eps (rhs eps p) ∧ vanishes ff eps (rhs eps q)) ∧
      (vanishes ff eps (rhs eps q) →
        ∀ a ∈ (ff.getFollowSymbols p.input).getD [], a ∉ startList ff eps (rhs eps p)) ∧
      (vanishes ff eps (rhs eps p) →
        ∀ a ∈ (ff.getFollowSymbols p.input).getD [], a ∉ startList ff eps (rhs eps q)))) :
    LL1FromAll eps ps := by
  have hocc : ∀ q ∈ ps, ∀ x ∈ rhs eps q, x ≠ eps ∧ ∃ q ∈ ps, x ∈ q.output := by
    intro q hq x hx
    unfold rhs at hx
    split at hx
    · simp at hx
    · rename_i hne
      refine ⟨?_, q, hq, hx⟩
      rintro rfl
      have h1 := (hw q hq).2.2 hx
      match ho : q.output, h1 with
      | [y], _ =>
        rw [ho] at hx hne
        simp only [List.mem_singleton] at hx
        exact hne (by rw [hx])
  have hin : ∀ x a, InFirst ff x a → a ∈ (ff.getFirstSymbols x).getD [] := by
    rintro x a ⟨s, hs, ha⟩
    simpa [hs] using ha
  have hv : ∀ l, Derives eps ps l [] → vanishes ff eps l := by
    intro l hd
    rw [derives_nil_iff] at hd
    simp only [vanishes, List.all_eq_true, decide_eq_true_eq]
    exact fun x hx => hin _ _ (hob.nullable hw (hd x hx))
  have hs : ∀ q ∈ ps, ∀ a, ¬ IsNonTerminal ps a → (∃ v, Derives eps ps (rhs eps q) (a :: v)) →
      a ∈ startList ff eps (rhs eps q) ∧ a ≠ eps := by
    rintro q hq a ha ⟨v, hd⟩
    obtain ⟨h1, h2⟩ := Derives.all (P := fun x => x ≠ eps ∧ ∃ q ∈ ps, x ∈ q.output)
      (fun r hr _ x hx => hocc r hr x hx) hd (hocc q hq) a (by simp)
    refine ⟨?_, h1⟩
    have hd := strFirst_of_derives ⟨h2, ha⟩ h1 hd
    generalize rhs eps q = l at hd
    induction l with
    | nil => exact absurd hd not_strFirst_nil
    | cons x l ih =>
      rw [strFirst_cons] at hd
      simp only [startList, List.mem_append]
      rcases hd with hd | ⟨hn, hd⟩
      · exact .inl (hin _ _ (hob.canStart hw hd))
      · refine .inr ?_
        rw [if_pos (hin _ _ (hob.nullable hw hn))]
        exact ih hd
  have hf : ∀ q ∈ ps, ∀ a, CanFollow eps ps q.input a → a ∈ (ff.getFollowSymbols q.input).getD [] := by
    intro q hq a ha
    obtain ⟨s, h1, h2⟩ := hob.canFollow hw ⟨q, hq, rfl⟩ ha
    simpa [h1] using h2
  rw [LL1FromAll, List.pairwise_iff_forall_sublist] at *
  intro p q hsub hpq
  have hp : p ∈ ps := hsub.subset (by simp)
  have hq : q ∈ ps := hsub.subset (by simp)
  obtain ⟨c1, c2, c3, c4⟩ := hall hsub hpq
  refine ⟨?_, ?_, ?_, ?_⟩
  · rintro a ha ⟨d1, d2⟩
    obtain ⟨e1, e2⟩ := hs p hp a ha d1
    exact c1 a e1 e2 (hs q hq a ha d2).1
  · exact fun ⟨d1, d2⟩ => c2 ⟨hv _ d1, hv _ d2⟩
  · exact fun a ha d1 d2 => c3 (hv _ d1) a (hf p hp a ha) (hs p hp a ha.1.2 d2).1
  · exact fun a ha d1 d2 => c4 (hv _ d1) a (hf p hp a ha) (hs q hq a ha.1.2 d2).1

theorem _root_.Verif.Spec.LL1FromAll.textbook {eps init : T} {ps : List (Production T)} (h : LL1FromAll eps ps)
    (hi : IsNonTerminal ps init) : TextbookLL1 eps init ps := by
  refine List.Pairwise.imp ?_ h
  intro p q hpq he
  have H := hpq he
  have hf : ∀ x a, CanFollowFrom eps ps init x a → CanFollow eps ps x a :=
    fun x a ⟨h1, h2, u, v, hd⟩ => ⟨h1, h2, init, u, v, hi, hd⟩
  exact ⟨H.first, H.empty, fun a ha => H.beta a (hf _ _ ha), fun a ha => H.alpha a (hf _ _ ha)⟩

/-- `S → X X`, `X → a Z`, `Z → b | ε` with `S = 1, X = 2, Z = 3, a = 10, b = 11`: not end-marked, and with
two equal symbols in a row. -/
def pairPs : List (Production Nat) := [⟨1, [2, 2]⟩, ⟨2, [10, 3]⟩, ⟨3, [11]⟩, ⟨3, [0]⟩]

/-- Textbook sets for `pairPs`. -/
def pairSets : FirstFollow Nat :=
  ⟨[(1, [10]), (2, [10]), (3, [11, 0]), (10, [10]), (11, [11]), (0, [0])],
   [(1, []), (2, [10]), (3, [10])]⟩

/-- The hypotheses of C86 are met by `pairPs`; its parser panics on the sentence `a b a`, and the parser of the
rewritten grammar accepts it and rejects `a b`. -/
theorem C86_example : ∃ g p g' p' tree f, Grammar.new (HashOrder.id Nat) 0 1 pairPs = .ok g ∧
    IsNonTerminal pairPs 1 ∧ TextbookLL1 0 1 pairPs ∧ Reduced 0 1 pairPs ∧ NotLeftRecursive 0 pairPs ∧
    Sentence 0 1 pairPs [10, 11, 10] ∧
    Built (HashOrder.id Nat) g none (p : Parser Unit Unit Nat) ∧
    ParsePanics p [⟨none, 10⟩, ⟨none, 11⟩, ⟨none, 10⟩] () ∧
    Grammar.new (HashOrder.id _) (old 0) start (wrapped 0 1 pairPs) = .ok g' ∧
    Built (HashOrder.id _) g' none (p' : Parser Unit Unit (Wrapped Nat)) ∧
    Parses p' (wrapTokens [⟨none, 10⟩, ⟨none, 11⟩, ⟨none, 10⟩]) () (.ok tree) () ∧
    Parses p' (wrapTokens [⟨none, 10⟩, ⟨none, 11⟩]) () (.err f) () := by
  obtain ⟨g, p, g', p', tree, f, h1, h2, h3, h4, h5, h6, h7⟩ : ∃ g p g' p' tree f,
      Grammar.new (HashOrder.id Nat) 0 1 pairPs = .ok g ∧
      Built (HashOrder.id Nat) g none (p : Parser Unit Unit Nat) ∧
      ParsePanics p [⟨none, 10⟩, ⟨none, 11⟩, ⟨none, 10⟩] () ∧
      Grammar.new (HashOrder.id _) (old 0) start (wrapped 0 1 pairPs) = .ok g' ∧
      Built (HashOrder.id _) g' none (p' : Parser Unit Unit (Wrapped Nat)) ∧
      Parses p' (wrapTokens [⟨none, 10⟩, ⟨none, 11⟩, ⟨none, 10⟩]) () (.ok tree) () ∧
      Parses p' (wrapTokens [⟨none, 10⟩, ⟨none, 11⟩]) () (.err f) () :=
    ⟨_, _, _, _, _, _, rfl, Parser.built_of_eval (n := 10) rfl, Parser.parse_panics (n := 30) (e := .unwrapNone) rfl,
      rfl, Parser.built_of_eval (n := 20) rfl, Parser.parse_returns (n := 60) rfl,
      Parser.parse_returns (n := 60) rfl⟩
  refine ⟨g, p, g', p', tree, f, h1, by unfold IsNonTerminal; decide, ?_, ?_, ?_, ⟨?_, ?_⟩, h2, h3, h4, h5, h6, h7⟩
  · exact (ll1FromAll_of_check (ff := pairSets) (wellFormed_of_new h1) (obeysRules_of_check (by decide))
      (by decide)).textbook (by unfold IsNonTerminal; decide)
  · have d1 : Derives 0 pairPs [1] [2, 2] := Derives.of_production (p := ⟨1, [2, 2]⟩) (by decide)
    have d2 : Derives 0 pairPs [2] [10, 3] := Derives.of_production (p := ⟨2, [10, 3]⟩) (by decide)
    have d3 : Derives 0 pairPs [3] [] := Derives.of_production (p := ⟨3, [0]⟩) (by decide)
    have d4 : Derives 0 pairPs [2] [10] := d2.trans (d3.context [10] [])
    have t10 : IsTerminal pairPs 10 := by unfold IsTerminal IsNonTerminal; decide
    rintro x ⟨q, hq, rfl⟩
    simp only [pairPs, List.mem_cons, List.not_mem_nil, or_false] at hq
    have r3 : Reachable 0 1 pairPs 3 ∧ Productive 0 pairPs 3 :=
      ⟨⟨[10], [2], d1.trans (d2.context [] [2])⟩, [], d3, by simp⟩
    rcases hq with rfl | rfl | rfl | rfl
    · refine ⟨⟨[], [], .refl _⟩, [10, 10], d1.trans ((d4.context [] [2]).trans (d4.context [10] [])), ?_⟩
      simp [t10]
    · exact ⟨⟨[], [2], d1⟩, [10], d4, by simp [t10]⟩
    · exact r3
    · exact r3
  · exact notLeftRecursive_of_rank (fun x => x == 3)
      (fun x => if x = 1 then 2 else if x = 2 then 1 else if x = 3 then 1 else 0) (by decide)
  · refine .step (Step.mk [] [] ⟨1, [2, 2]⟩ (by decide)) ?_
    refine .step (Step.mk [] [2] ⟨2, [10, 3]⟩ (by decide)) ?_
    refine .step (Step.mk [10] [2] ⟨3, [11]⟩ (by decide)) ?_
    refine .step (Step.mk [10, 11] [] ⟨2, [10, 3]⟩ (by decide)) ?_
    exact .step (Step.mk [10, 11, 10] [] ⟨3, [0]⟩ (by decide)) (.refl _)
  · unfold IsTerminal IsNonTerminal
    decide

end Verif.Props
