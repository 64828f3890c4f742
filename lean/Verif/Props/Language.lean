import Verif.Proof.CFG
import Verif.Props.LL1

/-!
# Property C46: the language, in terms of Mathlib's context-free grammars
-/

set_option linter.unusedSectionVars false

namespace Verif.Props

open Verif.Spec Verif.Examples

variable {σ L T : Type} [DecidableEq T]

/-- **C46**, trees: the token sequences that have a parse tree of the initial symbol are those whose
types form a word of the language of the grammar. -/
theorem C46_trees_are_language (h : HashOrder T) (eps init : T) (ps : List (Production T))
    (g : Grammar T) (hg : Grammar.new h eps init ps = .ok g) (hinit : IsNonTerminal ps init)
    (w : List (Token L T)) :
    (∃ n, IsTree eps ps init w n) ↔ w.map (·.tType) ∈ (toCFG eps init ps).language := by
  have hwf := (Grammar.grammarOf_of_new hg).wf
  rw [← sentence_iff_mem_language hwf hinit]
  constructor
  · rintro ⟨n, hn⟩
    refine ⟨hn.derives hwf ?_, ?_⟩
    · rintro rfl
      obtain ⟨q, hq, hqe⟩ := hinit
      exact (hwf q hq).1 hqe
    · intro a ha
      obtain ⟨t, ht, rfl⟩ := List.mem_map.1 ha
      exact Parser.IsTree.terminals hn (.inl hinit) t ht
  · exact fun hs => Parser.tree_of_sentence hs

/-- **C46**, soundness: an `Ok` means that a prefix of the input is in the language of the grammar. -/
theorem C46_ok_in_language (h : HashOrder T) (eps init : T) (ps : List (Production T))
    (g : Grammar T) (hg : Grammar.new h eps init ps = .ok g) (solver : Option (Solver σ L T))
    (p : Parser σ L T) (hp : Built h g solver p) (tokens : List (Token L T)) (s s' : σ)
    (tree : Tree L T) (hr : Parses p tokens s (.ok tree) s') :
    leaves eps tree.root <+: tokens ∧
    (leaves eps tree.root).map (·.tType) ∈ (toCFG eps init ps).language := by
  have P := (Parser.tableParser_of_built hg hp).1
  obtain ⟨k, _, hnt, h1, _, h2⟩ := ok_tree P.toParserOf hr
  rw [h2]
  exact ⟨List.take_prefix _ _, (C46_trees_are_language h eps init ps g hg hnt _).1 ⟨_, h1⟩⟩

/-- **C46**, decision: for an end-marked grammar without left recursion whose table has no conflicts
and no production with two equal adjacent non-terminals, `parse_from_tokens` gives `Ok` on an
end-marked input iff the input is in the language, and `Err` iff it is not. -/
theorem C46_ok_iff_in_language (h : HashOrder T) (eps init : T) (ps : List (Production T))
    (g : Grammar T) (hg : Grammar.new h eps init ps = .ok g) (p : Parser σ L T)
    (hp : Built h g none p) (hcf : ConflictFree p.transitions) (hadj : NoAdjacentRepeat ps)
    (hnlr : NotLeftRecursive eps ps) (e : T) (hem : EndMarked eps init e ps)
    (hinit : IsNonTerminal ps init)
    (tokens : List (Token L T)) (hin : EndsWith e tokens) (s : σ) :
    ((∃ tree, Parses p tokens s (.ok tree) s) ↔
      tokens.map (·.tType) ∈ (toCFG eps init ps).language) ∧
    ((∃ f s', Parses p tokens s (.err f) s') ↔
      tokens.map (·.tType) ∉ (toCFG eps init ps).language) := by
  have hwf := (Grammar.grammarOf_of_new hg).wf
  rw [← sentence_iff_mem_language hwf hinit]
  obtain ⟨h1, h2⟩ := C22_decides h eps init ps g hg p hp hcf hadj hnlr e hem tokens hin s
  have hex : ∀ tree s1 f s2, Parses p tokens s (.ok tree) s1 → ¬ Parses p tokens s (.err f) s2 := by
    intro tree s1 f s2 ha hb
    have := (Parser.Parses.det ha hb).1
    simp at this
  constructor
  · constructor
    · rintro ⟨tree, ht⟩
      by_contra hc
      obtain ⟨f, s', hf⟩ := h2 hc
      exact hex _ _ _ _ ht hf
    · intro hs
      obtain ⟨tree, ht, _⟩ := h1 hs
      exact ⟨tree, ht⟩
  · constructor
    · rintro ⟨f, s', hf⟩ hs
      obtain ⟨tree, ht, _⟩ := h1 hs
      exact hex _ _ _ _ ht hf
    · exact h2

/-- **C46**, equivalent grammars: if two such grammars, with the same end marker, have the same
language, then their parsers give `Ok` on the same end-marked inputs and `Err` on the same ones, however
different the productions are. -/
theorem C46_same_language (h h' : HashOrder T) (eps eps' init init' : T) (ps ps' : List (Production T))
    (g g' : Grammar T) (hg : Grammar.new h eps init ps = .ok g)
    (hg' : Grammar.new h' eps' init' ps' = .ok g') (p p' : Parser σ L T)
    (hp : Built h g none p) (hp' : Built h' g' none p')
    (hcf : ConflictFree p.transitions) (hcf' : ConflictFree p'.transitions)
    (hadj : NoAdjacentRepeat ps) (hadj' : NoAdjacentRepeat ps')
    (hnlr : NotLeftRecursive eps ps) (hnlr' : NotLeftRecursive eps' ps') (e : T)
    (hem : EndMarked eps init e ps) (hem' : EndMarked eps' init' e ps')
    (hinit : IsNonTerminal ps init) (hinit' : IsNonTerminal ps' init')
    (hlang : (toCFG eps init ps).language = (toCFG eps' init' ps').language)
    (tokens : List (Token L T)) (hin : EndsWith e tokens) (s : σ) :
    ((∃ tree, Parses p tokens s (.ok tree) s) ↔ ∃ tree, Parses p' tokens s (.ok tree) s) ∧
    ((∃ f s', Parses p tokens s (.err f) s') ↔ ∃ f s', Parses p' tokens s (.err f) s') := by
  have h1 := C46_ok_iff_in_language h eps init ps g hg p hp hcf hadj hnlr e hem hinit tokens hin s
  have h2 := C46_ok_iff_in_language h' eps' init' ps' g' hg' p' hp' hcf' hadj' hnlr' e hem' hinit'
    tokens hin s
  rw [h1.1, h1.2, h2.1, h2.2, hlang]
  exact ⟨Iff.rfl, Iff.rfl⟩

theorem isTree_terminal {eps x : T} {ps : List (Production T)} {w : List (Token L T)} {n : Node L T}
    (h : IsTree eps ps x w n) (hx : ¬ IsNonTerminal ps x) (he : x ≠ eps) :
    w.map (·.tType) = [x] := by
  cases h with
  | leaf t => rfl
  | eps => exact absurd rfl he
  | node p _ _ hp => exact absurd ⟨p, hp, rfl⟩ hx

theorem isTree_nonTerminal {eps x : T} {ps : List (Production T)} {w : List (Token L T)} {n : Node L T}
    (h : IsTree eps ps x w n) (hx : IsNonTerminal ps x) (he : x ≠ eps) :
    ∃ p ∈ ps, p.input = x ∧ ∃ ns, IsForest eps ps p.output w ns := by
  cases h with
  | leaf t h => exact absurd hx h
  | eps => exact absurd rfl he
  | node p _ ns hp hf => exact ⟨p, hp, rfl, ns, hf⟩

/-- The language of `S → a $` is `{a $}`. -/
theorem language_plain : (toCFG 0 1 [⟨1, [10, 16]⟩]).language = {[10, 16]} := by
  ext w
  obtain ⟨g, hg⟩ : ∃ g, Grammar.new (HashOrder.id Nat) 0 1 [⟨1, [10, 16]⟩] = .ok g := ⟨_, rfl⟩
  have hnt : IsNonTerminal [(⟨1, [10, 16]⟩ : Production Nat)] 1 := by simp [IsNonTerminal]
  have key := C46_trees_are_language (L := Unit) _ 0 1 _ g hg hnt (w.map (fun a => ⟨none, a⟩))
  have e : (w.map (fun a => (⟨none, a⟩ : Token Unit Nat))).map (·.tType) = w := by
    rw [List.map_map]
    exact List.map_id w
  rw [e] at key
  rw [← key]
  change _ ↔ w = [10, 16]
  constructor
  · rintro ⟨n, hn⟩
    obtain ⟨q, hq, _, ns, hf⟩ := isTree_nonTerminal hn hnt (by decide)
    simp only [List.mem_singleton] at hq
    subst hq
    rw [← e]
    generalize w.map (fun a => (⟨none, a⟩ : Token Unit Nat)) = u at hf
    cases hf with
    | cons _ _ w1 w2 _ _ h1 h2 =>
      cases h2 with
      | cons _ _ w3 w4 _ _ h3 h4 =>
        cases h4
        rw [List.map_append, isTree_terminal h1 (by simp [IsNonTerminal]) (by decide), List.append_nil,
          isTree_terminal h3 (by simp [IsNonTerminal]) (by decide)]
        rfl
  · rintro rfl
    exact ⟨_, .node ⟨1, [10, 16]⟩ _ _ (by simp)
      (.cons _ _ [⟨none, 10⟩] _ _ _ (.leaf ⟨none, 10⟩ (by simp [IsNonTerminal]) (by decide))
        (.cons _ _ [⟨none, 16⟩] _ _ _ (.leaf ⟨none, 16⟩ (by simp [IsNonTerminal]) (by decide)) .nil))⟩

/-- The language of `S → A $`, `A → a` is the same. -/
theorem language_nested : (toCFG 0 1 [⟨1, [2, 16]⟩, ⟨2, [10]⟩]).language = {[10, 16]} := by
  ext w
  obtain ⟨g, hg⟩ : ∃ g, Grammar.new (HashOrder.id Nat) 0 1 [⟨1, [2, 16]⟩, ⟨2, [10]⟩] = .ok g := ⟨_, rfl⟩
  have hnt : IsNonTerminal [(⟨1, [2, 16]⟩ : Production Nat), ⟨2, [10]⟩] 1 := by simp [IsNonTerminal]
  have hnt2 : IsNonTerminal [(⟨1, [2, 16]⟩ : Production Nat), ⟨2, [10]⟩] 2 := by simp [IsNonTerminal]
  have key := C46_trees_are_language (L := Unit) _ 0 1 _ g hg hnt (w.map (fun a => ⟨none, a⟩))
  have e : (w.map (fun a => (⟨none, a⟩ : Token Unit Nat))).map (·.tType) = w := by
    rw [List.map_map]
    exact List.map_id w
  rw [e] at key
  rw [← key]
  change _ ↔ w = [10, 16]
  constructor
  · rintro ⟨n, hn⟩
    obtain ⟨q, hq, hqi, ns, hf⟩ := isTree_nonTerminal hn hnt (by decide)
    simp only [List.mem_cons, List.not_mem_nil, or_false] at hq
    rcases hq with rfl | rfl
    · rw [← e]
      generalize w.map (fun a => (⟨none, a⟩ : Token Unit Nat)) = u at hf
      cases hf with
      | cons _ _ w1 w2 _ _ h1 h2 =>
        cases h2 with
        | cons _ _ w3 w4 _ _ h3 h4 =>
          cases h4
          obtain ⟨q, hq, hqi, ns, hf⟩ := isTree_nonTerminal h1 hnt2 (by decide)
          simp only [List.mem_cons, List.not_mem_nil, or_false] at hq
          rcases hq with rfl | rfl
          · simp at hqi
          · cases hf with
            | cons _ _ w5 w6 _ _ h5 h6 =>
              cases h6
              rw [List.map_append, List.append_nil, List.append_nil,
                isTree_terminal h5 (by simp [IsNonTerminal]) (by decide),
                isTree_terminal h3 (by simp [IsNonTerminal]) (by decide)]
              rfl
    · simp at hqi
  · rintro rfl
    exact ⟨_, .node ⟨1, [2, 16]⟩ _ _ (by simp)
      (.cons _ _ [⟨none, 10⟩] _ _ _ (.node ⟨2, [10]⟩ _ _ (by simp)
        (.cons _ _ [⟨none, 10⟩] _ _ _ (.leaf ⟨none, 10⟩ (by simp [IsNonTerminal]) (by decide)) .nil))
        (.cons _ _ [⟨none, 16⟩] _ _ _ (.leaf ⟨none, 16⟩ (by simp [IsNonTerminal]) (by decide)) .nil))⟩

/-- The hypotheses of `C46_same_language` are met by these two grammars. -/
example : ∃ g g' p p',
    Grammar.new (HashOrder.id Nat) 0 1 [⟨1, [10, 16]⟩] = .ok g ∧
    Grammar.new (HashOrder.id Nat) 0 1 [⟨1, [2, 16]⟩, ⟨2, [10]⟩] = .ok g' ∧
    Built (σ := Unit) (L := Unit) (HashOrder.id Nat) g none p ∧
    Built (σ := Unit) (L := Unit) (HashOrder.id Nat) g' none p' ∧
    ConflictFree p.transitions ∧ ConflictFree p'.transitions ∧
    NoAdjacentRepeat (T := Nat) [⟨1, [10, 16]⟩] ∧ NoAdjacentRepeat (T := Nat) [⟨1, [2, 16]⟩, ⟨2, [10]⟩] ∧
    NotLeftRecursive (T := Nat) 0 [⟨1, [10, 16]⟩] ∧
    NotLeftRecursive (T := Nat) 0 [⟨1, [2, 16]⟩, ⟨2, [10]⟩] ∧
    EndMarked (T := Nat) 0 1 16 [⟨1, [10, 16]⟩] ∧
    EndMarked (T := Nat) 0 1 16 [⟨1, [2, 16]⟩, ⟨2, [10]⟩] ∧
    (toCFG 0 1 [⟨1, [10, 16]⟩]).language = (toCFG 0 1 [⟨1, [2, 16]⟩, ⟨2, [10]⟩]).language := by
  obtain ⟨g, g', p, p', hg, hg', hp, hp', h1, h2⟩ : ∃ g g' p p',
      Grammar.new (HashOrder.id Nat) 0 1 [⟨1, [10, 16]⟩] = .ok g ∧
      Grammar.new (HashOrder.id Nat) 0 1 [⟨1, [2, 16]⟩, ⟨2, [10]⟩] = .ok g' ∧
      Built (σ := Unit) (L := Unit) (HashOrder.id Nat) g none p ∧
      Built (σ := Unit) (L := Unit) (HashOrder.id Nat) g' none p' ∧
      (∀ x ∈ [1], ∀ a ∈ [10, 16], ((p.transitions.getProductions x a).getD []).length ≤ 1) ∧
      (∀ x ∈ [1, 2], ∀ a ∈ [2, 16, 10], ((p'.transitions.getProductions x a).getD []).length ≤ 1) :=
    ⟨_, _, _, _, rfl, rfl, Parser.built_of_eval (n := 10) rfl, Parser.built_of_eval (n := 10) rfl,
      by decide, by decide⟩
  refine ⟨g, g', p, p', hg, hg', hp, hp', conflictFree_of_check hg hp h1, conflictFree_of_check hg' hp' h2,
    ?_, ?_, notLeftRecursive_of_rank (fun _ => false) (fun x => if x = 1 then 1 else 0) (by decide),
    notLeftRecursive_of_rank (fun _ => false) (fun x => if x = 1 then 2 else if x = 2 then 1 else 0)
      (by decide), ?_, ?_, language_plain.trans language_nested.symm⟩
  · intro q hq u x v e
    simp only [List.mem_singleton] at hq
    subst hq
    rcases u with _ | ⟨a, _ | ⟨b, u⟩⟩ <;> simp at e
    omega
  · intro q hq u x v e
    simp only [List.mem_cons, List.not_mem_nil, or_false] at hq
    rcases hq with rfl | rfl <;> rcases u with _ | ⟨a, _ | ⟨b, u⟩⟩ <;> simp at e
    omega
  · refine ⟨by decide, by unfold IsNonTerminal; decide, by decide, ?_, by decide⟩
    intro q hq _
    simp only [List.mem_singleton] at hq
    subst hq
    exact ⟨[10], rfl, by decide⟩
  · refine ⟨by decide, by unfold IsNonTerminal; decide, by decide, ?_, by decide⟩
    intro q hq hi
    simp only [List.mem_cons, List.not_mem_nil, or_false] at hq
    rcases hq with rfl | rfl
    · exact ⟨[2], rfl, by decide⟩
    · simp at hi

/-- The expression grammar: `id $` is in its language and accepted, `id id $` is not and is
rejected. -/
example : ∃ g p tree f, Grammar.new (HashOrder.id Nat) 0 1 exprPs = .ok g ∧
    Built (σ := Unit) (L := Unit) (HashOrder.id Nat) g none p ∧
    Parses p [⟨none, 15⟩, ⟨none, 16⟩] () (.ok tree) () ∧
    Parses p [⟨none, 15⟩, ⟨none, 15⟩, ⟨none, 16⟩] () (.err f) () ∧
    [15, 16] ∈ (toCFG 0 1 exprPs).language ∧ [15, 15, 16] ∉ (toCFG 0 1 exprPs).language := by
  obtain ⟨g, p, tree, f, hg, hp, hr, hf⟩ : ∃ g p tree f,
      Grammar.new (HashOrder.id Nat) 0 1 exprPs = .ok g ∧
      Built (σ := Unit) (L := Unit) (HashOrder.id Nat) g none p ∧
      Parses p [⟨none, 15⟩, ⟨none, 16⟩] () (.ok tree) () ∧
      Parses p [⟨none, 15⟩, ⟨none, 15⟩, ⟨none, 16⟩] () (.err f) () :=
    ⟨_, _, _, _, rfl, Parser.built_of_eval (n := 10) rfl, Parser.parse_returns (n := 30) rfl,
      Parser.parse_returns (n := 30) rfl⟩
  have hcf := exprPs_conflictFree p _ g hg none hp
  have hnt : IsNonTerminal exprPs 1 := ⟨⟨1, [2, 16]⟩, by simp [exprPs], rfl⟩
  have key := fun tokens hin => C46_ok_iff_in_language _ _ _ _ g hg p hp hcf exprPs_noAdjacentRepeat
    exprPs_notLeftRecursive 16 exprPs_endMarked hnt tokens hin ()
  exact ⟨g, p, tree, f, hg, hp, hr, hf,
    (key _ ⟨[⟨none, 15⟩], _, rfl, rfl, by simp⟩).1.1 ⟨_, hr⟩,
    (key _ ⟨[⟨none, 15⟩, ⟨none, 15⟩], _, rfl, rfl, by simp⟩).2.1 ⟨_, _, hf⟩⟩

end Verif.Props
