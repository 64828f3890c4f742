import Verif.Proof.Augment
import Verif.Props.LL1Grammar
import Verif.Props.EndOfInput

/-!
# Property C88: adding an end marker to a grammar
-/

set_option linter.unusedSectionVars false

namespace Verif.Props

open Verif.Spec Verif.Examples

variable {σ L T : Type} [DecidableEq T]

mutual
theorem isTree_augment {eps init start stop : T} {ps : List (Production T)} (hf : Fresh eps ps start stop)
    {x : T} {w : List (Token L T)} {n : Node L T}
    (h : IsTree eps ps x w n) (hx : x ≠ start) : IsTree eps (augment init start stop ps) x w n := by
  cases h with
  | leaf t h1 h2 => exact .leaf t (fun h => (isNonTerminal_augment.1 h).elim hx h1) h2
  | eps => exact .eps
  | node q w ns hq hns =>
    exact .node q w ns (mem_augment.2 (.inr hq)) (isForest_augment hf hns (hf.start_unused q hq).2)
theorem isForest_augment {eps init start stop : T} {ps : List (Production T)} (hf : Fresh eps ps start stop)
    {xs : List T} {w : List (Token L T)} {ns : List (Node L T)}
    (h : IsForest eps ps xs w ns) (hx : start ∉ xs) :
    IsForest eps (augment init start stop ps) xs w ns := by
  cases h with
  | nil => exact .nil
  | cons x xs w w' n ns h1 h2 =>
    simp only [List.mem_cons, not_or] at hx
    exact .cons x xs w w' n ns (isTree_augment hf h1 (Ne.symm hx.1)) (isForest_augment hf h2 hx.2)
end

section
variable (h h' : HashOrder T) (eps init start stop : T) (ps : List (Production T))
  (hf : Fresh eps ps start stop) (hinit : IsNonTerminal ps init)
  (g : Grammar T) (hg : Grammar.new h eps init ps = .ok g)

include hf hinit hg

/-- **C88.** Add `start → init stop` to a grammar, with two new symbols. The new grammar is accepted and
end-marked, and its sentences are those of the old one with `stop` behind. It is left-recursive, or has
two equal non-terminals side by side, only if the old one is or has. -/
theorem C88_end_marked :
    (∃ g', Grammar.new h' eps start (augment init start stop ps) = .ok g') ∧
    EndMarked eps start stop (augment init start stop ps) ∧
    (∀ w', Sentence eps start (augment init start stop ps) w' ↔
      ∃ w, w' = w ++ [stop] ∧ Sentence eps init ps w) ∧
    (NotLeftRecursive eps (augment init start stop ps) ↔ NotLeftRecursive eps ps) ∧
    (NoAdjacentRepeat (augment init start stop ps) ↔ NoAdjacentRepeat ps) := by
  have hw := (Grammar.grammarOf_of_new hg).wf
  exact ⟨(Grammar.new_eq_ok_iff h' eps start _).2 (hf.wellFormed hw hinit), hf.endMarked hinit,
    fun w' => hf.sentence hinit, hf.notLeftRecursive hinit, hf.noAdjacentRepeat hinit⟩

variable (g' : Grammar T) (hg' : Grammar.new h' eps start (augment init start stop ps) = .ok g')
include hg'

/-- **C88**, the sets: for the non-terminals of the old grammar the FIRST sets stay the same, and a FOLLOW set
gains at most `stop`, exactly if the symbol can stand at the end of a form derived from the old initial symbol. -/
theorem C88_sets (ff ff' : FirstFollow T) (hff : Returns (fun n => FirstFollow.from h n g) ff)
    (hff' : Returns (fun n => FirstFollow.from h' n g') ff') (x : T) (hx : IsNonTerminal ps x) :
    ∃ fi fi' fo fo', ff.getFirstSymbols x = some fi ∧ ff'.getFirstSymbols x = some fi' ∧
      ff.getFollowSymbols x = some fo ∧ ff'.getFollowSymbols x = some fo' ∧
      (∀ a, a ∈ fi' ↔ a ∈ fi) ∧ ∀ a, a ∈ fo' ↔ a ∈ fo ∨ a = stop ∧ CanEnd eps ps init x := by
  have hx' : IsNonTerminal (augment init start stop ps) x := isNonTerminal_augment.2 (.inr hx)
  have hxs : x ≠ start := by rintro rfl; exact hf.not_start hx
  have hxp : x ≠ stop := by rintro rfl; exact hf.not_stop hx
  obtain ⟨fi, hfi⟩ := Option.isSome_iff_exists.1 (((C07_first_domain h eps init ps g hg ff hff).1 x).2 (.inr hx))
  obtain ⟨fi', hfi'⟩ := Option.isSome_iff_exists.1
    (((C07_first_domain h' eps start _ g' hg' ff' hff').1 x).2 (.inr hx'))
  obtain ⟨fo, hfo⟩ := Option.isSome_iff_exists.1 (((C10_follow_domain h eps init ps g hg ff hff).1 x).2 hx)
  obtain ⟨fo', hfo'⟩ := Option.isSome_iff_exists.1
    (((C10_follow_domain h' eps start _ g' hg' ff' hff').1 x).2 hx')
  refine ⟨fi, fi', fo, fo', hfi, hfi', hfo, hfo', ?_, ?_⟩
  · intro a
    by_cases ha : a = eps
    · subst ha
      have h1 := C06_first_eps h a init ps g hg ff hff x hx
      have h2 := C06_first_eps h' a start _ g' hg' ff' hff' x hx'
      simp only [hfi, hfi', Option.some.injEq, exists_eq_left'] at h1 h2
      rw [h1, h2]
      exact hf.nullable hxs
    · have h1 := C05_first_exact h eps init ps g hg ff hff x hx a ha
      have h2 := C05_first_exact h' eps start _ g' hg' ff' hff' x hx' a ha
      simp only [hfi, hfi', Option.some.injEq, exists_eq_left'] at h1 h2
      rw [h1, h2]
      have := hf.canStart (init := init) hinit hxs hxp (a := a)
      unfold CanStart at this
      constructor
      · intro h3
        obtain ⟨h4, _, h5⟩ := this.1 ⟨h3.1, ha, h3.2⟩
        exact ⟨h4, h5⟩
      · intro h3
        obtain ⟨h4, _, h5⟩ := this.2 ⟨h3.1, ha, h3.2⟩
        exact ⟨h4, h5⟩
  · intro a
    have h1 := follow_mem_iff hg hff hx a
    have h2 := follow_mem_iff hg' hff' hx' a
    simp only [hfo, hfo', Option.some.injEq, exists_eq_left'] at h1 h2
    rw [h1, h2, hf.followRule hinit hxs]
    exact or_congr Iff.rfl (and_congr_right fun _ => ⟨fun h => h.2, fun h => ⟨hx, h⟩⟩)

variable (solver solver' : Option (Solver σ L T)) (p p' : Parser σ L T) (hp : Built h g solver p)
  (hp' : Built h' g' solver' p')
include hp hp'

/-- **C88**, the table: outside of the new row and the new column every cell stays exactly the same. In the new
column the cell of a symbol has its productions that begin with a symbol that can vanish, where the vanishing
symbol (or the input, if the output is empty) can end a form derived from the old initial symbol. -/
theorem C88_cells :
    (∀ x a, x ≠ start → a ≠ stop → p'.transitions.getProductions x a = p.transitions.getProductions x a) ∧
    (∀ x, IsNonTerminal ps x → ∃ l, p'.transitions.getProductions x stop = some l ∧ l.Sublist ps ∧
      ∀ q, q ∈ l ↔ q ∈ ps ∧ q.input = x ∧ ((q.output = [eps] ∧ CanEnd eps ps init x) ∨
        ∃ y t, q.output = y :: t ∧ Nullable eps ps y ∧ CanEnd eps ps init y)) ∧
    (∀ a l, p'.transitions.getProductions start a = some l → l.length ≤ 1) := by
  have hw := (Grammar.grammarOf_of_new hg).wf
  obtain ⟨ff, hff, e⟩ := (Parser.built_iff hg).1 hp
  obtain ⟨ff', hff', e'⟩ := (Parser.built_iff hg').1 hp'
  obtain ⟨S, hS, hL⟩ := table_spec hg hff (Parser.from_eq_ok e).2.2
  obtain ⟨S', hS', hL'⟩ := table_spec hg' hff' (Parser.from_eq_ok e').2.2
  have hrow : ∀ x a, x ≠ start → (augment init start stop ps).filter (fun q => q.input = x ∧ a ∈ S' q) =
      ps.filter (fun q => q.input = x ∧ a ∈ S' q) := by
    intro x a hx
    unfold augment
    rw [List.filter_cons_of_neg]
    simp only [decide_eq_true_eq]
    exact fun h => hx h.1.symm
  refine ⟨?_, ?_, ?_⟩
  · intro x a hx ha
    by_cases hc : IsNonTerminal ps x ∧ IsTerminal ps a
    · rw [hS.some x a hc.1 hc.2, hS'.some x a (isNonTerminal_augment.2 (.inr hc.1))
        ((hf.isTerminal hinit).2 (.inl hc.2)), hrow x a hx]
      congr 1
      apply List.filter_congr
      intro q hq
      rw [decide_eq_decide, hL q hq, hL' q (mem_augment.2 (.inr hq)), hf.lead hinit hq ha]
    · rw [hS.none x a hc, hS'.none x a]
      rintro ⟨h1, h2⟩
      exact hc ⟨(isNonTerminal_augment.1 h1).resolve_left hx, ((hf.isTerminal hinit).1 h2).resolve_right ha⟩
  · intro x hx
    have hxs : x ≠ start := by rintro rfl; exact hf.not_start hx
    refine ⟨_, hS'.some x stop (isNonTerminal_augment.2 (.inr hx)) ((hf.isTerminal hinit).2 (.inr rfl)), ?_, ?_⟩
    · rw [hrow x stop hxs]
      exact List.filter_sublist
    · intro q
      rw [hrow x stop hxs]
      simp only [List.mem_filter, decide_eq_true_eq]
      refine and_congr_right fun hq => and_congr_right fun hqx => ?_
      rw [hL' q (mem_augment.2 (.inr hq)), hf.lead_stop hinit hq, hqx]
      refine or_congr (and_congr_left fun _ => ?_) ?_
      · exact Transitions.rhs_eq_nil_iff (Grammar.grammarOf_of_new hg) hq
      · refine exists_congr fun y => exists_congr fun t => ?_
        unfold rhs
        split
        · rename_i ho
          rw [ho]
          constructor
          · rintro ⟨h1, _⟩; simp at h1
          · rintro ⟨h1, h2, _⟩
            simp only [List.cons.injEq] at h1
            obtain ⟨rfl, _⟩ := h1
            have : ¬ IsNonTerminal ps eps := by
              rintro ⟨r, hr, hre⟩
              exact (hw r hr).1 hre
            have := Derives.terminal_eq this h2
            simp at this
        · rfl
  · intro a l hl
    by_cases hc : IsNonTerminal (augment init start stop ps) start ∧ IsTerminal (augment init start stop ps) a
    · rw [hS'.some start a hc.1 hc.2] at hl
      cases hl
      have : ps.filter (fun q => q.input = start ∧ a ∈ S' q) = [] := by
        rw [List.filter_eq_nil_iff]
        intro q hq
        simp [(hf.start_unused q hq).1]
      unfold augment
      rw [List.filter_cons, this]
      split <;> simp
    · rw [hS'.none start a hc] at hl
      exact absurd hl (by simp)

/-- **C88**, conflicts: the new table has no conflicts exactly if the old one has none and there are none in the
new column. -/
theorem C88_conflict_free :
    ConflictFree p'.transitions ↔ ConflictFree p.transitions ∧
      ∀ x, IsNonTerminal ps x → ∀ l, p'.transitions.getProductions x stop = some l → l.length ≤ 1 := by
  obtain ⟨h1, _, h3⟩ := C88_cells h h' eps init start stop ps hf hinit g hg g' hg' solver solver' p p' hp hp'
  obtain ⟨ff', hff', e'⟩ := (Parser.built_iff hg').1 hp'
  obtain ⟨S', hS', -⟩ := table_spec hg' hff' (Parser.from_eq_ok e').2.2
  obtain ⟨ff, hff, e⟩ := (Parser.built_iff hg).1 hp
  obtain ⟨S, hS, -⟩ := table_spec hg hff (Parser.from_eq_ok e).2.2
  constructor
  · intro hc
    refine ⟨?_, fun x _ l hl => hc x stop l hl⟩
    intro x a l hl
    have hin : IsNonTerminal ps x ∧ IsTerminal ps a := by
      by_contra hn
      rw [hS.none x a hn] at hl
      exact absurd hl (by simp)
    have hx : x ≠ start := by rintro rfl; exact hf.not_start hin.1
    have ha : a ≠ stop := by
      rintro rfl
      obtain ⟨⟨r, hr, hm⟩, _⟩ := hin.2
      exact (hf.stop_unused r hr).2 hm
    exact hc x a l (by rw [h1 x a hx ha]; exact hl)
  · rintro ⟨hc, hcol⟩ x a l hl
    by_cases hx : x = start
    · subst hx; exact h3 a l hl
    · by_cases ha : a = stop
      · subst ha
        refine hcol x ?_ l hl
        have hin : IsNonTerminal (augment init start a ps) x := by
          by_contra hn
          rw [hS'.none x a fun h => hn h.1] at hl
          exact absurd hl (by simp)
        exact (isNonTerminal_augment.1 hin).resolve_left hx
      · exact hc x a l (by rw [← h1 x a hx ha]; exact hl)

end

section
variable (h h' : HashOrder T) (eps init start stop : T) (ps : List (Production T))
  (hf : Fresh eps ps start stop) (hinit : IsNonTerminal ps init)
  (g : Grammar T) (hg : Grammar.new h eps init ps = .ok g)
  (g' : Grammar T) (hg' : Grammar.new h' eps start (augment init start stop ps) = .ok g')
  (p p' : Parser σ L T) (hp : Built h g none p)
  (hp' : Built h' g' none p') (hcf : ConflictFree p'.transitions) (hadj : NoAdjacentRepeat ps)
  (tokens : List (Token L T)) (hns : ∀ t ∈ tokens, t.tType ≠ stop) (lex : Option L) (s : σ)

include hf hinit hg hg' hp' hcf hadj hns

/-- **C88**, deciding. Let the old grammar be without left recursion and without two equal non-terminals side by
side, and let the new table have no conflicts. With an end marker behind it, an input gives `Ok` if the input is
a sentence of the old grammar, and the tree is that of the old grammar over all tokens below the new root;
it gives `Err` if it is no sentence. -/
theorem C88_decides (hnlr : NotLeftRecursive eps ps) :
    (Sentence eps init ps (tokens.map (·.tType)) →
      ∃ n, IsTree eps ps init tokens n ∧
        Parses p' (tokens ++ [⟨lex, stop⟩]) s
          (.ok ⟨.mk [n, .mk [] ⟨lex, stop⟩] ⟨none, start⟩⟩) s) ∧
    (¬ Sentence eps init ps (tokens.map (·.tType)) →
      ∃ f s', Parses p' (tokens ++ [⟨lex, stop⟩]) s (.err f) s') := by
  obtain ⟨h1, h2⟩ := C22_decides h' eps start _ g' hg' p' hp' hcf ((hf.noAdjacentRepeat hinit).2 hadj)
    ((hf.notLeftRecursive hinit).2 hnlr) stop (hf.endMarked hinit) (tokens ++ [⟨lex, stop⟩])
    ⟨tokens, ⟨lex, stop⟩, rfl, rfl, hns⟩ s
  have hsen : Sentence eps start (augment init start stop ps)
      ((tokens ++ [(⟨lex, stop⟩ : Token L T)]).map (·.tType)) ↔ Sentence eps init ps (tokens.map (·.tType)) := by
    rw [hf.sentence hinit]
    constructor
    · rintro ⟨w, e, hw⟩
      simp only [List.map_append, List.map_cons, List.map_nil, List.append_cancel_right_eq] at e
      rwa [e]
    · intro hw
      exact ⟨_, by simp, hw⟩
  rw [hsen] at h1 h2
  refine ⟨fun hw => ?_, h2⟩
  obtain ⟨⟨root⟩, hr, ht⟩ := h1 hw
  obtain ⟨w', t, n', e, ht1, rfl, ht2⟩ := hf.isTree_start hinit ht
  obtain ⟨rfl, e2⟩ := List.append_inj' e rfl
  simp only [List.cons.injEq, and_true] at e2
  subst e2
  exact ⟨n', ht2, hr⟩

include hp in
/-- **C88**, what is gained: on a sentence the old parser returns the same tree over all tokens or panics; on an
input that is no sentence it never returns a tree over all tokens (it may return `Ok` with a tree over less). -/
theorem C88_old_parser (hnlr : NotLeftRecursive eps ps) :
    (∀ n, Parses p' (tokens ++ [⟨lex, stop⟩]) s (.ok ⟨.mk [n, .mk [] ⟨lex, stop⟩] ⟨none, start⟩⟩) s →
      Parses p tokens s (.ok ⟨n⟩) s ∨ ParsePanics p tokens s) ∧
    (∀ n, Parses p tokens s (.ok ⟨n⟩) s → leaves eps n = tokens →
      Parses p' (tokens ++ [⟨lex, stop⟩]) s (.ok ⟨.mk [n, .mk [] ⟨lex, stop⟩] ⟨none, start⟩⟩) s) := by
  have hwf := (Grammar.grammarOf_of_new hg).wf
  have hcfo := ((C88_conflict_free h h' eps init start stop ps hf hinit g hg g' hg' none none p p' hp hp').1
    hcf).1
  have huniq : ∀ n m : Node L T, IsTree eps ps init tokens n → IsTree eps ps init tokens m → n = m := by
    have hnode : ∀ n : Node L T, IsTree eps ps init tokens n → IsTree eps (augment init start stop ps) start
        (tokens ++ [⟨lex, stop⟩]) (.mk [n, .mk [] ⟨lex, stop⟩] ⟨none, start⟩) := by
      intro n hn
      refine .node ⟨start, [init, stop]⟩ _ _ (mem_augment.2 (.inl rfl)) ?_
      have h3 : IsForest (L := L) eps (augment init start stop ps) [stop] [⟨lex, stop⟩] [.mk [] ⟨lex, stop⟩] := by
        have := IsForest.cons stop [] [⟨lex, stop⟩] [] (.mk [] ⟨lex, stop⟩) []
          (IsTree.leaf (L := L) ⟨lex, stop⟩ hf.stop_terminal hf.stop_ne_eps) (IsForest.nil (L := L) (eps := eps)
            (ps := augment init start stop ps))
        simpa using this
      exact .cons init [stop] _ _ _ _ (isTree_augment hf hn (hf.ne_start hinit)) h3
    intro n m hn hm
    have := C37_unambiguous h' eps start _ g' hg' p' hp' hcf ((hf.noAdjacentRepeat hinit).2 hadj) stop
      (hf.endMarked hinit) s _ _ _ (hnode n hn) (hnode m hm)
    simpa using this
  have hdec := C88_decides h h' eps init start stop ps hf hinit g hg g' hg' p' hp' hcf hadj tokens hns lex s hnlr
  have htree : ∀ n : Node L T, IsTree eps ps init tokens n → Sentence eps init ps (tokens.map (·.tType)) := by
    intro n hn
    refine ⟨hn.derives hwf ?_, ?_⟩
    · rintro rfl
      obtain ⟨q, hq, hqe⟩ := hinit
      exact (hwf q hq).1 hqe
    · intro a ha
      obtain ⟨t, ht, rfl⟩ := List.mem_map.1 ha
      exact Parser.IsTree.terminals hn (.inl hinit) t ht
  constructor
  · intro n hr
    have hs : Sentence eps init ps (tokens.map (·.tType)) := by
      by_contra hc
      obtain ⟨f, s', hr'⟩ := hdec.2 hc
      exact absurd (Parser.Parses.det hr hr').1 (by simp)
    obtain ⟨m, hm, hrm⟩ := hdec.1 hs
    have e := (Parser.Parses.det hr hrm).1
    simp only [ParseResult.ok.injEq, Tree.mk.injEq, Node.mk.injEq, List.cons.injEq, and_true] at e
    subst e
    rcases C73_sentence h eps init ps g hg p (.inl hp) hcfo (tableComplete_of_noAdjacentRepeat hg hp hadj)
      hinit tokens s hs with ⟨⟨k⟩, h1, h2⟩ | h1
    · rw [huniq n k hm h2]
      exact .inl h1
    · exact .inr h1
  · intro n hr hl
    have P := (Parser.tableParser_of_built hg hp).1
    obtain ⟨k, _, hnt, h1, _, h2⟩ := ok_tree P.toParserOf hr
    rw [hl] at h2
    rw [← h2] at h1
    obtain ⟨m, hm, hrm⟩ := hdec.1 (htree n h1)
    rw [huniq n m h1 hm]
    exact hrm

end

/-- `S → a B`, `B → b B | ε`, without end marker. -/
def tailPs : List (Production Nat) := [⟨1, [10, 2]⟩, ⟨2, [11, 2]⟩, ⟨2, [0]⟩]

/-- The hypotheses of C88 are met: with `6 → S 16` added the grammar has no conflicts and accepts `a b` and the
marker; the old parser panics on the sentence `a b`. -/
theorem C88_example : ∃ g g' p p' t, Grammar.new (HashOrder.id Nat) 0 1 tailPs = .ok g ∧
    Fresh 0 tailPs 6 16 ∧ IsNonTerminal tailPs 1 ∧
    Grammar.new (HashOrder.id Nat) 0 6 (augment 1 6 16 tailPs) = .ok g' ∧
    Built (σ := Unit) (L := Unit) (HashOrder.id Nat) g none p ∧
    Built (σ := Unit) (L := Unit) (HashOrder.id Nat) g' none p' ∧ ConflictFree p'.transitions ∧
    NoAdjacentRepeat tailPs ∧ NotLeftRecursive 0 tailPs ∧
    ParsePanics p [⟨none, 10⟩, ⟨none, 11⟩] () ∧
    Parses p' [⟨none, 10⟩, ⟨none, 11⟩, ⟨none, 16⟩] () (.ok t) () := by
  obtain ⟨g, g', p, p', t, hg, hg', hp, hp', hall, h1, h2⟩ : ∃ g g' p p' t,
      Grammar.new (HashOrder.id Nat) 0 1 tailPs = .ok g ∧
      Grammar.new (HashOrder.id Nat) 0 6 (augment 1 6 16 tailPs) = .ok g' ∧
      Built (σ := Unit) (L := Unit) (HashOrder.id Nat) g none p ∧
      Built (σ := Unit) (L := Unit) (HashOrder.id Nat) g' none p' ∧
      (∀ x ∈ (augment 1 6 16 tailPs).map (·.input), ∀ a ∈ (augment 1 6 16 tailPs).flatMap (·.output),
        ((p'.transitions.getProductions x a).getD []).length ≤ 1) ∧
      ParsePanics p [⟨none, 10⟩, ⟨none, 11⟩] () ∧
      Parses p' [⟨none, 10⟩, ⟨none, 11⟩, ⟨none, 16⟩] () (.ok t) () :=
    ⟨_, _, _, _, _, rfl, rfl, Parser.built_of_eval (n := 10) rfl, Parser.built_of_eval (n := 10) rfl,
      by decide, Parser.parse_panics (n := 40) (e := .unwrapNone) rfl, Parser.parse_returns (n := 40) rfl⟩
  exact ⟨g, g', p, p', t, hg, ⟨by decide, by decide, by decide, by decide, by decide⟩,
    by unfold IsNonTerminal; decide, hg', hp, hp', conflictFree_of_check hg' hp' hall,
    noAdjacentRepeat_of_check (by decide),
    notLeftRecursive_of_rank (fun x => x == 2) (fun x => if x = 1 then 2 else if x = 2 then 1 else 0) (by decide),
    h1, h2⟩

end Verif.Props
