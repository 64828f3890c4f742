import Verif.Proof.Backtrack
import Verif.Props.LL1

/-!
# Property C48: when backtracking is complete
-/

set_option linter.unusedSectionVars false

namespace Verif.Props

open Verif.Spec Verif.Examples

variable {σ L T : Type} [DecidableEq T]

/-- **C48**, no false errors: if the input begins with a phrase of the initial symbol (with tree `n`)
and retries suffice on it, then `parse_from_tokens` does not return `Err`; no end marker is needed, but
the phrase must not end with an empty non-terminal, or the next token can follow the initial symbol. -/
theorem C48_no_err (h : HashOrder T) (eps init : T) (ps : List (Production T))
    (g : Grammar T) (hg : Grammar.new h eps init ps = .ok g) (p : Parser σ L T)
    (hp : Built h g none p) (hadj : NoAdjacentRepeat ps) (hinit : IsNonTerminal ps init)
    (w rest : List (Token L T)) (n : Node L T) (hn : IsTree eps ps init w n)
    (hrest : (∃ t rest', rest = t :: rest' ∧ CanFollow eps ps init t.tType) ∨ ¬ EndsEmpty eps ps n)
    (hsuff : RetriesSuffice eps ps (candidates p.transitions) (w ++ rest)) (s : σ) :
    ¬ ∃ f s', Parses p (w ++ rest) s (.err f) s' := by
  obtain ⟨P, hs⟩ := Parser.tableParser_of_built hg hp
  have ec : candidates p.transitions = p.getTokenProductions :=
    funext fun x => funext fun a => (Parser.getTokenProductions_eq p x a).symm
  have hfc : ∀ x a, IsNonTerminal ps x → CanFollow eps ps x a → FollowRule eps ps x a :=
    fun x a hx hc => followRule_complete hadj hx hc
  intro herr
  cases hn with
  | leaf t hnt => exact hnt hinit
  | eps =>
    obtain ⟨q, hq, hqe⟩ := hinit
    exact (P.grammar.wf q hq).1 hqe
  | node q _ ns hq hf =>
    obtain ⟨t, r, e1, e2⟩ := Parser.cand_of_tree P.toParserOf (P.covers hfc) hq hf hrest
    rw [e1] at herr hsuff
    rw [(C24_ordered_choice h eps q.input ps g hg p hp t r s).2.1, ec] at herr
    rw [ec] at hsuff
    rcases Parser.choice_complete P hfc hsuff herr q.output e2 (fun o ho => P.cand _ _ _ ho) w ns rest
      hf (by simp [e1]) (Parser.InContext.children (t := ⟨none, q.input⟩) hrest) with h1 | ⟨_, _, _, h1, _⟩
    · cases h1
    · cases h1

/-- **C48.** A sentence of an end-marked grammar without left recursion on which retries suffice is
accepted, also if table cells hold several productions. -/
theorem C48_backtracking_complete (h : HashOrder T) (eps init : T) (ps : List (Production T))
    (g : Grammar T) (hg : Grammar.new h eps init ps = .ok g) (p : Parser σ L T)
    (hp : Built h g none p) (hadj : NoAdjacentRepeat ps) (hnlr : NotLeftRecursive eps ps) (e : T)
    (hem : EndMarked eps init e ps) (tokens : List (Token L T)) (hin : EndsWith e tokens)
    (hs : Sentence eps init ps (tokens.map (·.tType)))
    (hsuff : RetriesSuffice eps ps (candidates p.transitions) tokens) (s : σ) :
    ∃ tree, Parses p tokens s (.ok tree) s ∧ IsTree eps ps init tokens tree.root := by
  have hwf := (Grammar.grammarOf_of_new hg).wf
  obtain ⟨n, hn⟩ := Parser.tree_of_sentence hs
  have hnt : IsNonTerminal ps init := by
    by_contra hc
    have := Derives.terminal_eq hc hs.1
    have hi := (hs.2 init (by rw [this]; simp)).1.1
    obtain ⟨q, hq, hq'⟩ := hi
    exact hem.initial_once q hq hq'
  have hends := Parser.not_endsEmpty_of_endMarked hwf hem hnt hn
  have hno := C48_no_err h eps init ps g hg p hp hadj hnt tokens [] n hn (.inr hends)
    (by rwa [List.append_nil]) s
  rw [List.append_nil] at hno
  rcases C19_terminates h eps init ps g hg none p hp hnlr tokens (by intro sv h; simp at h)
      (by rintro pos r ⟨_, sv, _, _, h, _⟩; simp at h) s with ⟨r, s', hr⟩ | hpan
  · cases r with
    | err f => exact absurd ⟨f, s', hr⟩ hno
    | fix f => exact absurd hr (C27_no_fix_without_solver h eps init ps g hg p (.inl hp) tokens s s' f)
    | ok tree =>
      obtain ⟨_, htree⟩ := C17_whole_input_partial h eps init ps g hg none p hp e hem tokens hin s s'
        tree hr
      have hss : s' = s := by
        cases tokens with
        | nil => obtain ⟨n, hn⟩ := Parser.parses_at hr; simp [Parser.parseFromTokens] at hn
        | cons t ts => exact (((C24_ordered_choice h eps init ps g hg p hp t ts s).1 _ _).1 hr).1
      subst hss
      exact ⟨tree, hr, htree⟩
  · exact absurd hpan (C18_no_panic_partial h eps init ps g hg p hp e hem tokens hin s)

/-- Retries suffice on every input if every non-terminal with a conflict is prefix-free. -/
theorem retriesSuffice_of_prefixFree {eps : T} {ps : List (Production T)} (hw : WellFormed eps ps)
    {cand : T → T → List (List T)}
    (hpf : ∀ x, IsNonTerminal ps x → (∀ a, (cand x a).length ≤ 1) ∨ PrefixFree eps ps x)
    (tokens : List (Token L T)) : RetriesSuffice eps ps cand tokens := by
  intro q hq before x xs ho hx i t ht
  rcases hpf x hx with h1 | h1
  · exact .inl (h1 _)
  · refine .inr (.inl ?_)
    have hxe : x ≠ eps := by
      rintro rfl
      obtain ⟨q, hq, hqe⟩ := hx
      exact (hw q hq).1 hqe
    have key : ∀ (w w' : List (Token L T)) ns ns', IsForest eps ps [x] w ns → IsForest eps ps [x] w' ns' → w <+: w' →
        w.length = w'.length := by
      rintro w w' ns ns' h2 h3 ⟨v, rfl⟩
      have d2 := Parser.IsForest.derives hw (by simpa using Ne.symm hxe) h2
      have d3 := Parser.IsForest.derives hw (by simpa using Ne.symm hxe) h3
      rw [List.map_append] at d3
      have := h1 _ _ d2 d3 (by
        intro a ha
        rw [← List.map_append] at ha
        obtain ⟨t, ht, rfl⟩ := List.mem_map.1 ha
        refine Parser.IsForest.terminals h3 ?_ t ht
        intro y hy
        simp only [List.mem_singleton] at hy
        subst hy
        exact ⟨q, hq, by rw [ho]; simp⟩)
      simp only [List.map_eq_nil_iff] at this
      simp [this]
    intro w w' ns ns' h2 h3 h4 h5
    rcases List.prefix_or_prefix_of_prefix h4 h5 with h6 | h6
    · exact key _ _ _ _ h2 h3 h6
    · exact (key _ _ _ _ h3 h2 h6).symm

/-- **C48**, a grammar condition: if every non-terminal either has no conflicts of its own in the table
or is prefix-free, the parser of an end-marked grammar without left recursion and without two equal
adjacent non-terminals decides the language. -/
theorem C48_prefix_free_decides (h : HashOrder T) (eps init : T) (ps : List (Production T))
    (g : Grammar T) (hg : Grammar.new h eps init ps = .ok g) (p : Parser σ L T)
    (hp : Built h g none p) (hadj : NoAdjacentRepeat ps) (hnlr : NotLeftRecursive eps ps) (e : T)
    (hem : EndMarked eps init e ps)
    (hpf : ∀ x, IsNonTerminal ps x →
      (∀ a, (candidates p.transitions x a).length ≤ 1) ∨ PrefixFree eps ps x)
    (tokens : List (Token L T)) (hin : EndsWith e tokens) (s : σ) :
    (Sentence eps init ps (tokens.map (·.tType)) →
      ∃ tree, Parses p tokens s (.ok tree) s ∧ IsTree eps ps init tokens tree.root) ∧
    (¬ Sentence eps init ps (tokens.map (·.tType)) → ∃ f s', Parses p tokens s (.err f) s') := by
  have hwf := (Grammar.grammarOf_of_new hg).wf
  constructor
  · intro hs
    exact C48_backtracking_complete h eps init ps g hg p hp hadj hnlr e hem tokens hin hs
      (retriesSuffice_of_prefixFree hwf hpf tokens) s
  · intro hs
    rcases C19_terminates h eps init ps g hg none p hp hnlr tokens (by intro sv h; simp at h)
        (by rintro pos r ⟨_, sv, _, _, h, _⟩; simp at h) s with ⟨r, s', hr⟩ | hpan
    · cases r with
      | err f => exact ⟨f, s', hr⟩
      | fix f => exact absurd hr (C27_no_fix_without_solver h eps init ps g hg p (.inl hp) tokens s s' f)
      | ok tree =>
        exfalso
        apply hs
        obtain ⟨_, htree⟩ := C17_whole_input_partial h eps init ps g hg none p hp e hem tokens hin s s'
          tree hr
        obtain ⟨P, _⟩ := Parser.tableParser_of_built hg hp
        obtain ⟨k, _, hnt, _⟩ := ok_tree P.toParserOf hr
        refine ⟨htree.derives P.grammar.wf ?_, ?_⟩
        · rintro rfl
          obtain ⟨q, hq, hqe⟩ := hnt
          exact (P.grammar.wf q hq).1 hqe
        · intro a ha
          obtain ⟨t, ht, rfl⟩ := List.mem_map.1 ha
          exact Parser.IsTree.terminals htree (.inl hnt) t ht
    · exact absurd hpan (C18_no_panic_partial h eps init ps g hg p hp e hem tokens hin s)

/-! ## The hypotheses can be met -/

theorem Derives.terminals_eq {eps : T} {ps : List (Production T)} {u v : List T}
    (hu : ∀ a ∈ u, ¬ IsNonTerminal ps a) (h : Derives eps ps u v) : v = u := by
  cases h with
  | refl => rfl
  | step s _ =>
    cases s with
    | mk a b q hq => exact absurd ⟨q, hq, rfl⟩ (hu q.input (by simp))

/-- A symbol whose productions have only terminals, none a prefix of another, is prefix-free. -/
theorem prefixFree_of_terminals {eps : T} {ps : List (Production T)} {x : T}
    (hx : IsNonTerminal ps x)
    (hout : ∀ q ∈ ps, q.input = x → ∀ a ∈ rhs eps q, ¬ IsNonTerminal ps a)
    (hpre : ∀ q ∈ ps, q.input = x → ∀ q' ∈ ps, q'.input = x → rhs eps q <+: rhs eps q' →
      rhs eps q = rhs eps q') : PrefixFree eps ps x := by
  have key : ∀ u, (∀ a ∈ u, ¬ IsNonTerminal ps a) → Derives eps ps [x] u →
      ∃ q ∈ ps, q.input = x ∧ u = rhs eps q := by
    intro u hu hd
    cases hd with
    | refl => exact absurd hx (hu x (by simp))
    | step s hd =>
      obtain ⟨q, hq, hqx, rfl⟩ := s.single
      exact ⟨q, hq, hqx, Derives.terminals_eq (hout q hq hqx) hd⟩
  intro u v hu hv ht
  obtain ⟨q, hq, hqx, e1⟩ := key u (fun a ha => (ht a (by simp [ha])).1.2) hu
  obtain ⟨q', hq', hqx', e2⟩ := key _ (fun a ha => (ht a ha).1.2) hv
  have := hpre q hq hqx q' hq' hqx' (by rw [← e1, ← e2]; simp)
  rw [← e1, ← e2] at this
  simpa using this

/-- Statements with a common beginning: `S → L $`, `L → T L | ε`, `T → i = i ; | i ( i ) ;`, with
`S = 1, L = 2, T = 3, i = 10, = 11, ; 12, ( 13, ) 14, $ = 15`. -/
def stmtPs : List (Production Nat) :=
  [⟨1, [2, 15]⟩, ⟨2, [3, 2]⟩, ⟨2, [0]⟩, ⟨3, [10, 11, 10, 12]⟩, ⟨3, [10, 13, 10, 14, 12]⟩]

/-- The hypotheses of C48 are met by the statement grammar, whose table has a conflict; the parser
accepts `i ( i ) ; i = i ; $`. -/
example : ∃ g p tree, Grammar.new (HashOrder.id Nat) 0 1 stmtPs = .ok g ∧
    Built (σ := Unit) (L := Unit) (HashOrder.id Nat) g none p ∧
    NoAdjacentRepeat stmtPs ∧ NotLeftRecursive 0 stmtPs ∧ EndMarked 0 1 15 stmtPs ∧
    (candidates p.transitions 3 10).length = 2 ∧
    (∀ x, IsNonTerminal stmtPs x →
      (∀ a, (candidates p.transitions x a).length ≤ 1) ∨ PrefixFree 0 stmtPs x) ∧
    Parses p [⟨none, 10⟩, ⟨none, 13⟩, ⟨none, 10⟩, ⟨none, 14⟩, ⟨none, 12⟩, ⟨none, 10⟩, ⟨none, 11⟩,
      ⟨none, 10⟩, ⟨none, 12⟩, ⟨none, 15⟩] () (.ok tree) () := by
  obtain ⟨g, p, tree, hg, hp, hlen, hall, hr⟩ : ∃ g p tree,
      Grammar.new (HashOrder.id Nat) 0 1 stmtPs = .ok g ∧
      Built (σ := Unit) (L := Unit) (HashOrder.id Nat) g none p ∧
      (candidates p.transitions 3 10).length = 2 ∧
      (∀ x ∈ [1, 2], ∀ a ∈ stmtPs.flatMap (·.output),
        ((p.transitions.getProductions x a).getD []).length ≤ 1) ∧
      Parses p [⟨none, 10⟩, ⟨none, 13⟩, ⟨none, 10⟩, ⟨none, 14⟩, ⟨none, 12⟩, ⟨none, 10⟩, ⟨none, 11⟩,
        ⟨none, 10⟩, ⟨none, 12⟩, ⟨none, 15⟩] () (.ok tree) () :=
    ⟨_, _, _, rfl, Parser.built_of_eval (n := 10) rfl, rfl, by decide,
      Parser.parse_returns (n := 40) rfl⟩
  refine ⟨g, p, tree, hg, hp, ?_, ?_, ?_, hlen, ?_, hr⟩
  · intro p hp u x v he hx
    have : ∀ p ∈ stmtPs, ∀ i < p.output.length, p.output[i]? ≠ p.output[i + 1]? := by decide
    refine this p hp u.length (by rw [he]; simp) ?_
    rw [he]
    simp
  · exact notLeftRecursive_of_rank (fun x => x == 2)
      (fun x => if x = 1 then 3 else if x = 2 then 2 else if x = 3 then 1 else 0) (by decide)
  · refine ⟨by decide, by unfold IsNonTerminal; decide, by decide, ?_, by decide⟩
    intro p hp hi
    refine ⟨[2], ?_, by decide⟩
    revert p
    decide
  · intro x hx
    by_cases h3 : x = 3
    · right
      subst h3
      refine prefixFree_of_terminals hx ?_ ?_
      · unfold IsNonTerminal; decide
      · decide
    · left
      intro a
      obtain ⟨ff, hff, e⟩ := (Parser.built_iff hg).1 hp
      obtain ⟨t, h1, h2, _⟩ := C12_table_cells (HashOrder.id Nat) 0 1 stmtPs g hg ff hff
      rw [(Parser.from_eq_ok e).2.2] at h1
      cases h1
      unfold candidates
      cases hl : p.transitions.getProductions x a with
      | none => simp
      | some l =>
        obtain ⟨⟨q, hq, hqx⟩, ⟨q', hq', hqa⟩, _⟩ := (h2 x a).1 (by simp [hl])
        have hx' : x ∈ [1, 2] := by
          have : ∀ q ∈ stmtPs, q.input = 3 ∨ q.input ∈ [1, 2] := by decide
          rcases this q hq with h | h
          · exact absurd (hqx.symm.trans h) h3
          · rwa [hqx] at h
        have := hall x hx' a (List.mem_flatMap.2 ⟨q', hq', hqa⟩)
        rw [hl] at this
        simpa using this

end Verif.Props
