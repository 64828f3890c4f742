import Verif.Proof.DanglingElse
import Verif.Props.Coarser
import Verif.Props.Backtrack
import Verif.Props.Choice
import Verif.Props.FirstChoice

/-!
# Property C111: the dangling `else`
-/

namespace Verif.Props

open Verif.Spec ElseSym

variable {σ L : Type}

namespace DanglingElse

theorem wellFormed : WellFormed empty elseFirst ∧ WellFormed empty elseLast := by
  constructor <;> intro p hp <;> simp only [elseFirst, elseLast, List.mem_cons, List.not_mem_nil, or_false] at hp <;>
    rcases hp with rfl | rfl | rfl | rfl | rfl <;> simp

theorem endMarked : EndMarked empty start stop elseFirst ∧ EndMarked empty start stop elseLast := by
  have h : EndMarked empty start stop elseFirst := by
    refine ⟨by simp, by rw [Else.nt_first]; simp, ?_, ?_, ?_⟩ <;> intro p hp <;>
      rcases Else.mem_first hp with rfl | rfl | rfl | rfl | rfl <;> simp
    exact ⟨[stmt], rfl, by simp⟩
  exact ⟨h, ⟨h.ne_eps, by rw [Else.nt_last]; simp, fun q hq => h.initial_once q (Else.mem_last.1 hq),
    fun q hq => h.initial_ends q (Else.mem_last.1 hq), fun q hq => h.only_there q (Else.mem_last.1 hq)⟩⟩

theorem noAdjacent : NoAdjacentRepeat elseFirst := by
  intro p hp u x v e _
  rcases Else.mem_first hp with rfl | rfl | rfl | rfl | rfl <;>
    (rcases u with _ | ⟨u1, _ | ⟨u2, _ | ⟨u3, u⟩⟩⟩ <;> simp at e)
  all_goals (first
    | (obtain ⟨rfl, h, -⟩ := e; simp at h; done)
    | (obtain ⟨-, rfl, h, -⟩ := e; simp at h; done)
    | (obtain ⟨-, rfl, h⟩ := e; simp at h; done))

theorem notLeftRecursive : NotLeftRecursive empty elseFirst ∧ NotLeftRecursive empty elseLast :=
  ⟨notLeftRecursive_of_rank (fun x => x = tail) (fun x => if x = start then 2 else if x = stmt then 1 else if x = tail then 1 else 0)
    (by decide), notLeftRecursive_of_rank (fun x => x = tail)
    (fun x => if x = start then 2 else if x = stmt then 1 else if x = tail then 1 else 0) (by decide)⟩

theorem table_first (σ L : Type) : ∃ g p, Grammar.new (HashOrder.id ElseSym) empty start elseFirst = .ok g ∧
    Built (HashOrder.id ElseSym) g none (p : Parser σ L ElseSym) ∧
    Else.Table elseFirst (candidates p.transitions) [[els, stmt], [empty]] :=
  ⟨_, _, rfl, Parser.built_of_eval (n := 12) rfl, Else.nt_first, rfl, rfl, rfl, rfl, rfl, rfl⟩

theorem table_last (σ L : Type) : ∃ g p, Grammar.new (HashOrder.id ElseSym) empty start elseLast = .ok g ∧
    Built (HashOrder.id ElseSym) g none (p : Parser σ L ElseSym) ∧
    Else.Table elseLast (candidates p.transitions) [[empty], [els, stmt]] :=
  ⟨_, _, rfl, Parser.built_of_eval (n := 12) rfl, Else.nt_last, rfl, rfl, rfl, rfl, rfl, rfl⟩

theorem rejected {h : HashOrder ElseSym} {ps : List (Production ElseSym)} {g : Grammar ElseSym}
    (hg : Grammar.new h empty start ps = .ok g) {p : Parser σ L ElseSym} (hp : Built h g none p)
    (hem : EndMarked empty start stop ps) (hnlr : NotLeftRecursive empty ps) {tokens : List (Token L ElseSym)}
    (hin : EndsWith stop tokens) (s : σ) (hno : ∀ tree s', ¬ Parses p tokens s (.ok tree) s') :
    ∃ f s', Parses p tokens s (.err f) s' := by
  rcases C19_terminates h empty start ps g hg none p hp hnlr tokens (by intro sv h; simp at h)
      (by rintro pos r ⟨_, sv, _, _, h, _⟩; simp at h) s with ⟨r, s', hr⟩ | hpan
  · cases r with
    | err f => exact ⟨f, s', hr⟩
    | fix f => exact absurd hr (C27_no_fix_without_solver h empty start ps g hg p (.inl hp) tokens s s' f)
    | ok tree => exact absurd hr (hno tree s')
  · exact absurd hpan (C18_no_panic_partial h empty start ps g hg p hp stop hem tokens hin s)

theorem split_at_stop {w w' rest : List (Token L ElseSym)} {l l' : Option L} (h : ∀ u ∈ w, u.tType ≠ stop)
    (h' : ∀ u ∈ w', u.tType ≠ stop) (e : w ++ [⟨l, stop⟩] = w' ++ ⟨l', stop⟩ :: rest) : w = w' := by
  induction w generalizing w' with
  | nil =>
    cases w' with
    | nil => rfl
    | cons x w' =>
      simp only [List.nil_append, List.cons_append, List.cons.injEq] at e
      exact absurd (congrArg Token.tType e.1).symm (h' x (by simp))
  | cons x w ih =>
    cases w' with
    | nil =>
      simp only [List.nil_append, List.cons_append, List.cons.injEq] at e
      exact absurd (congrArg Token.tType e.1) (h x (by simp))
    | cons y w' =>
      simp only [List.cons_append, List.cons.injEq] at e
      rw [e.1, ih (fun u hu => h u (by simp [hu])) (fun u hu => h' u (by simp [hu])) e.2]

theorem candidates_hash {h h' : HashOrder ElseSym} {ps : List (Production ElseSym)} {g g' : Grammar ElseSym}
    (hg : Grammar.new h empty start ps = .ok g) (hg' : Grammar.new h' empty start ps = .ok g')
    {solver solver' : Option (Solver σ L ElseSym)} {p p' : Parser σ L ElseSym} (hp : Built h g solver p)
    (hp' : Built h' g' solver' p') : candidates p.transitions = candidates p'.transitions := by
  obtain ⟨ff, hff, e1⟩ := (Parser.built_iff hg).1 hp
  obtain ⟨ff', hff', e2⟩ := (Parser.built_iff hg').1 hp'
  funext x a
  unfold candidates
  rw [C11_table_hash_independent h h' empty start ps g g' ff ff' p.transitions p'.transitions hg hg'
    hff hff' (Parser.from_eq_ok e1).2.2 (Parser.from_eq_ok e2).2.2 x a]

end DanglingElse

/-- **C111**, the words: those of the language are the tokens of statements, and each is that of a statement in which
each `else` belongs to the nearest `if`; only of one (`C111_one_nearest`). -/
theorem C111_nearest (w : List (Token L ElseSym)) :
    (IsStmt (w.map (·.tType)) ↔ ∃ e : IfStmt L, e.tokens = w) ∧
    (IsStmt (w.map (·.tType)) → ∃ e : IfStmt L, e.Nearest ∧ e.tokens = w) := by
  refine ⟨⟨fun h => ?_, ?_⟩, fun h => Else.nearest_of_isStmt h w rfl⟩
  · obtain ⟨e, -, he⟩ := Else.nearest_of_isStmt h w rfl
    exact ⟨e, he⟩
  · rintro ⟨e, rfl⟩
    exact Else.isStmt_tokens e

/-- **C111**, the trees: those of the grammar, in whichever order its productions stand, are those of statements, however
their `else` are placed. -/
theorem C111_trees (w : List (Token L ElseSym)) (t : Node L ElseSym) :
    (IsTree empty elseFirst start w t ↔ ∃ e : IfStmt L, ∃ l, w = e.tokens ++ [⟨l, stop⟩] ∧ t = (e.whole l).root) ∧
    (IsTree empty elseLast start w t ↔ ∃ e : IfStmt L, ∃ l, w = e.tokens ++ [⟨l, stop⟩] ∧ t = (e.whole l).root) := by
  refine ⟨Else.trees w t, ?_, fun h => ?_⟩
  · intro h
    exact (Else.trees w t).1 (isTree_congr (fun _ => Else.mem_last) h)
  · exact isTree_congr (fun _ => Else.mem_last.symm) ((Else.trees w t).2 h)

section
variable (h : HashOrder ElseSym) (g : Grammar ElseSym) (hg : Grammar.new h empty start elseFirst = .ok g)
  (solver : Option (Solver σ L ElseSym)) (p : Parser σ L ElseSym) (hp : Built h g solver p)
include hg hp

/-- **C111.** With the production for `else` first, every statement is accepted, whatever stands behind the end marker, and
each `else` goes to the nearest `if`; with any solver, which is not asked. -/
theorem C111_else_first (e : IfStmt L) (he : e.Nearest) (l : Option L) (rest : List (Token L ElseSym)) (s : σ) :
    Parses p (e.tokens ++ ⟨l, stop⟩ :: rest) s (.ok (e.whole l)) s := by
  obtain ⟨g0, p0, hg0, hp0, C⟩ := DanglingElse.table_first σ L
  have hc : candidates p.transitions = candidates p0.transitions := DanglingElse.candidates_hash hg hg0 hp hp0
  refine C112_first_choice h empty start _ g hg p (.inl ⟨solver, hp⟩) ((Else.nt_first _).2 (.inl rfl)) _ _
    (0 + e.tokens.length + 1) ?_ s
  rw [hc]
  exact Else.predicted_whole C e he l rest

/-- **C111**, the converse: whatever is accepted is such a statement in front of an end marker. -/
theorem C111_ok (tokens : List (Token L ElseSym)) (s s' : σ) (tree : Tree L ElseSym) (hr : Parses p tokens s (.ok tree) s') :
    ∃ e : IfStmt L, ∃ l rest, e.Nearest ∧ tokens = e.tokens ++ ⟨l, stop⟩ :: rest ∧ tree = e.whole l := by
  obtain ⟨k, -, -, h1, -, -⟩ := ok_tree (Parser.tableParser_of_built hg hp).1.toParserOf hr
  obtain ⟨e0, l, h2, -⟩ := (Else.trees _ _).1 h1
  obtain ⟨e, he, h3⟩ := (C111_nearest e0.tokens).2 (Else.isStmt_tokens e0)
  have htok : tokens = e.tokens ++ ⟨l, stop⟩ :: tokens.drop k := by
    conv_lhs => rw [← List.take_append_drop k tokens, h2, ← h3]
    simp
  have h4 := C111_else_first h g hg solver p hp e he l (tokens.drop k) s
  rw [← htok] at h4
  have := congrArg Prod.fst (Returns.det hr h4)
  simp only [ParseResult.ok.injEq] at this
  exact ⟨e, l, _, he, htok, this⟩

end

section
variable (h : HashOrder ElseSym) (g : Grammar ElseSym) (hg : Grammar.new h empty start elseFirst = .ok g)
  (p : Parser σ L ElseSym) (hp : Built h g none p)
include hg hp

/-- **C111**, decision: an input with one end marker, at its end, is accepted if the rest is a statement, and rejected with
`Err` otherwise, although the table has a conflict. -/
theorem C111_decides (tokens : List (Token L ElseSym)) (t : Token L ElseSym) (ht : t.tType = stop)
    (hno : ∀ u ∈ tokens, u.tType ≠ stop) (s : σ) :
    (IsStmt (tokens.map (·.tType)) → ∃ tree, Parses p (tokens ++ [t]) s (.ok tree) s) ∧
    (¬ IsStmt (tokens.map (·.tType)) → ∃ f s', Parses p (tokens ++ [t]) s (.err f) s') := by
  obtain ⟨l, x⟩ := t
  simp only at ht
  subst ht
  constructor
  · intro hw
    obtain ⟨e, he, rfl⟩ := (C111_nearest tokens).2 hw
    exact ⟨_, C111_else_first h g hg none p hp e he l [] s⟩
  · intro hw
    refine DanglingElse.rejected hg hp DanglingElse.endMarked.1 DanglingElse.notLeftRecursive.1 ⟨tokens, ⟨l, stop⟩, rfl, rfl, hno⟩
      s fun tree s' hr => hw ?_
    obtain ⟨e, l', rest, -, h1, -⟩ := C111_ok h g hg none p hp _ s s' tree hr
    rw [DanglingElse.split_at_stop hno (Else.no_stop e) h1]
    exact Else.isStmt_tokens e

end

section
variable (h : HashOrder ElseSym) (g : Grammar ElseSym) (hg : Grammar.new h empty start elseLast = .ok g)
  (p : Parser σ L ElseSym) (hp : Built h g none p)
include hg hp

/-- **C111**, the other order: with the production for `else` last, a statement without any `else` is accepted, and every
statement with an `else` is rejected with `Err`, whatever stands behind the end marker. -/
theorem C111_else_last (w : List (Token L ElseSym)) (hw : IsStmt (w.map (·.tType))) (l : Option L)
    (rest : List (Token L ElseSym)) (s : σ) :
    ((∀ t ∈ w, t.tType ≠ els) → ∃ e : IfStmt L, e.tokens = w ∧ Parses p (w ++ ⟨l, stop⟩ :: rest) s (.ok (e.whole l)) s) ∧
    ((∃ t ∈ w, t.tType = els) → ∃ f s', Parses p (w ++ ⟨l, stop⟩ :: rest) s (.err f) s') := by
  obtain ⟨g0, p0, hg0, hp0, C⟩ := DanglingElse.table_last σ L
  have hsame := (C36_hash_independent _ _ _ _ _ g0 g hg0 hg none p0 p hp0 hp (w ++ ⟨l, stop⟩ :: rest) s).1
  obtain ⟨e, rfl⟩ := (C111_nearest w).1.1 hw
  obtain ⟨h1, h2, h3⟩ := Else.spine_spec e
  constructor
  · intro hne
    rcases h3 with ⟨h3, -⟩ | ⟨m, r, h3⟩
    · rw [h3, List.append_nil] at h2
      obtain ⟨u, hu, h0, hc⟩ := Else.found_noElse (tokens := e.tokens ++ ⟨l, stop⟩ :: rest) C _ 0 ⟨l, stop⟩ rest h1
        (by rw [List.drop_zero, h2]) (.inl rfl)
      have h4 := Else.start_found C (by rw [h2]) hu h0 hc
      refine ⟨(Else.spine e).1, h2.symm, (hsame _ _).1 ?_⟩
      generalize e.tokens ++ ⟨l, stop⟩ :: rest = tokens at h0 h4
      cases tokens with
      | nil => simp at h0
      | cons t ts =>
        obtain rfl : t = u := by simpa using h0
        exact ((C24_ordered_choice _ _ _ _ g0 hg0 p0 hp0 t ts s).1 _ _).2 ⟨rfl, _, _, h4⟩
    · exact absurd rfl (hne ⟨m, els⟩ (by rw [h2, h3]; simp))
  · rintro ⟨t, ht, hte⟩
    rcases h3 with ⟨-, h3⟩ | ⟨m, r, h3⟩
    · exact absurd hte (h3 t ht)
    · have h5 : e.tokens ++ ⟨l, stop⟩ :: rest = (Else.spine e).1.tokens ++ ⟨m, els⟩ :: (r ++ ⟨l, stop⟩ :: rest) := by
        conv_lhs => rw [h2, h3]
        simp
      obtain ⟨u, hu, h0, hc⟩ := Else.found_noElse (tokens := e.tokens ++ ⟨l, stop⟩ :: rest) C _ 0 ⟨m, els⟩ _ h1
        (by rw [List.drop_zero, h5]) (.inr rfl)
      have h4 := Else.start_failed C h5 (by simp) hu h0 hc
      have : ∃ f s', Parses p0 (e.tokens ++ ⟨l, stop⟩ :: rest) s (.err f) s' := by
        generalize e.tokens ++ ⟨l, stop⟩ :: rest = tokens at h0 h4
        cases tokens with
        | nil => simp at h0
        | cons t ts =>
          obtain rfl : t = u := by simpa using h0
          exact (C24_ordered_choice _ _ _ _ g0 hg0 p0 hp0 t ts s).2.1.2 h4
      obtain ⟨f, s', h6⟩ := this
      exact ⟨f, s', (hsame _ _).1 h6⟩

/-- **C111**, the other order, decision: an input with one end marker, at its end, is accepted if the rest is a statement
without `else`, and rejected with `Err` otherwise. -/
theorem C111_else_last_decides (tokens : List (Token L ElseSym)) (t : Token L ElseSym) (ht : t.tType = stop)
    (hno : ∀ u ∈ tokens, u.tType ≠ stop) (s : σ) :
    (IsStmt (tokens.map (·.tType)) ∧ (∀ u ∈ tokens, u.tType ≠ els) → ∃ tree, Parses p (tokens ++ [t]) s (.ok tree) s) ∧
    (¬ (IsStmt (tokens.map (·.tType)) ∧ ∀ u ∈ tokens, u.tType ≠ els) →
      ∃ f s', Parses p (tokens ++ [t]) s (.err f) s') := by
  obtain ⟨l, x⟩ := t
  simp only at ht
  subst ht
  constructor
  · rintro ⟨hw, hne⟩
    obtain ⟨e, -, h1⟩ := (C111_else_last h g hg p hp tokens hw l [] s).1 hne
    exact ⟨_, h1⟩
  · intro hw
    by_cases hw' : IsStmt (tokens.map (·.tType))
    · refine (C111_else_last h g hg p hp tokens hw' l [] s).2 ?_
      by_contra hc
      exact hw ⟨hw', fun u hu he => hc ⟨u, hu, he⟩⟩
    · refine DanglingElse.rejected hg hp DanglingElse.endMarked.2 DanglingElse.notLeftRecursive.2
        ⟨tokens, ⟨l, stop⟩, rfl, rfl, hno⟩ s fun tree s' hr => hw' ?_
      obtain ⟨k, -, -, h1, -, -⟩ := ok_tree (Parser.tableParser_of_built hg hp).1.toParserOf hr
      obtain ⟨e, l', h2, -⟩ := (C111_trees _ _).2.1 h1
      have h3 : tokens ++ [(⟨l, stop⟩ : Token L ElseSym)] =
          e.tokens ++ ⟨l', stop⟩ :: (tokens ++ [(⟨l, stop⟩ : Token L ElseSym)]).drop k := by
        have h4 := List.take_append_drop k (tokens ++ [(⟨l, stop⟩ : Token L ElseSym)])
        rw [h2, List.append_assoc] at h4
        exact h4.symm
      rw [DanglingElse.split_at_stop hno (Else.no_stop e) h3]
      exact Else.isStmt_tokens e

end

/-- **C111**: no two statements in which each `else` belongs to the nearest `if` have the same tokens. -/
theorem C111_one_nearest (e e' : IfStmt L) (he : e.Nearest) (he' : e'.Nearest) (h : e.tokens = e'.tokens) : e = e' := by
  obtain ⟨g, p, hg, hp, -⟩ := DanglingElse.table_first Unit L
  have h1 := C111_else_first _ g hg none p hp e he none [] ()
  have h2 := C111_else_first _ g hg none p hp e' he' none [] ()
  rw [← h] at h2
  have := congrArg Prod.fst (Returns.det h1 h2)
  simp only [ParseResult.ok.injEq, IfStmt.whole, Tree.mk.injEq, Node.mk.injEq, List.cons.injEq] at this
  exact Else.tree_inj this.1.1

/-- **C111**, the ambiguity: both readings of `if if other else other` have a tree. -/
theorem C111_ambiguous (L : Type) : ∃ e e' : IfStmt L, e.tokens = e'.tokens ∧ (e.whole none).root ≠ (e'.whole none).root ∧
    IsTree empty elseFirst start (e.tokens ++ [⟨none, stop⟩]) (e.whole none).root ∧
    IsTree empty elseFirst start (e.tokens ++ [⟨none, stop⟩]) (e'.whole none).root ∧ e.Nearest ∧ ¬ e'.Nearest := by
  refine ⟨.ifThen none (.ifElse none (.plain none) none (.plain none)),
    .ifElse none (.ifThen none (.plain none)) none (.plain none), rfl, ?_, ?_, ?_, ?_, ?_⟩
  · intro hc
    simp [IfStmt.whole, IfStmt.tree] at hc
  · exact (Else.trees _ _).2 ⟨_, none, rfl, rfl⟩
  · exact (Else.trees _ _).2 ⟨.ifElse none (.ifThen none (.plain none)) none (.plain none), none, rfl, rfl⟩
  · simp [IfStmt.Nearest, IfStmt.Open]
  · simp [IfStmt.Nearest, IfStmt.Open]

/-- **C111**, the conflict: in both orders the table, for any hash order, has a cell with two productions; so nothing but their
order decides. -/
theorem C111_conflict (h : HashOrder ElseSym) (ps : List (Production ElseSym)) (hps : ps = elseFirst ∨ ps = elseLast)
    (g : Grammar ElseSym) (hg : Grammar.new h empty start ps = .ok g) (p : Parser σ L ElseSym) (hp : Built h g none p)
    (s : σ) :
    ¬ ConflictFree p.transitions := by
  intro hcf
  obtain ⟨e, e', h1, h2, h3, h4, -, -⟩ := C111_ambiguous L
  rcases hps with rfl | rfl
  · refine h2 (C37_unambiguous h empty start _ g hg p hp hcf ?_ stop DanglingElse.endMarked.1 s _ _ _ h3 h4)
    exact DanglingElse.noAdjacent
  · refine h2 (C37_unambiguous h empty start _ g hg p hp hcf ?_ stop DanglingElse.endMarked.2 s _ _ _
      (isTree_congr (fun _ => Else.mem_last.symm) h3) (isTree_congr (fun _ => Else.mem_last.symm) h4))
    exact fun q hq u x v e hx => DanglingElse.noAdjacent q (Else.mem_last.1 hq) u x v e ((Else.nt_first x).2 ((Else.nt_last x).1 hx))

/-- The statements without `else`. -/
def noElse : List (Production ElseSym) :=
  [⟨start, [stmt, stop]⟩, ⟨stmt, [other]⟩, ⟨stmt, [iff, stmt, tail]⟩, ⟨tail, [empty]⟩]

/-- The hypotheses of `C112_more_candidates` are met: the production for `else` is added at the end, the second table has a
conflict, its cells begin with those of the first, and `if other` is accepted. -/
theorem C112_example : ∃ g p g' p' tree, Grammar.new (HashOrder.id ElseSym) empty start noElse = .ok g ∧
    Built (HashOrder.id ElseSym) g none (p : Parser Unit Unit ElseSym) ∧
    Grammar.new (HashOrder.id ElseSym) empty start (noElse ++ [⟨tail, [els, stmt]⟩]) = .ok g' ∧
    Built (HashOrder.id ElseSym) g' none (p' : Parser Unit Unit ElseSym) ∧
    (∀ x, IsNonTerminal (noElse ++ [⟨tail, [els, stmt]⟩]) x ↔ IsNonTerminal noElse x) ∧
    ConflictFree p.transitions ∧ ¬ ConflictFree p'.transitions ∧
    (∀ x a, candidates p.transitions x a <+: candidates p'.transitions x a) ∧
    Parses p [⟨none, iff⟩, ⟨none, other⟩, ⟨none, stop⟩] () (.ok tree) () := by
  obtain ⟨g, p, hg, hp, hcf, hpre, tree, hr⟩ : ∃ g p, Grammar.new (HashOrder.id ElseSym) empty start noElse = .ok g ∧
      Built (HashOrder.id ElseSym) g none (p : Parser Unit Unit ElseSym) ∧ (∀ x ∈ noElse.map (·.input),
        ∀ a ∈ noElse.flatMap (·.output), ((p.transitions.getProductions x a).getD []).length ≤ 1) ∧
      (∃ g' p', Grammar.new (HashOrder.id ElseSym) empty start (noElse ++ [⟨tail, [els, stmt]⟩]) = .ok g' ∧
        Built (HashOrder.id ElseSym) g' none (p' : Parser Unit Unit ElseSym) ∧
        ∀ x a, candidates p.transitions x a <+: candidates p'.transitions x a) ∧
      ∃ tree, Parses p [⟨none, iff⟩, ⟨none, other⟩, ⟨none, stop⟩] () (.ok tree) () :=
    ⟨_, _, rfl, Parser.built_of_eval (n := 12) rfl, by decide, ⟨_, _, rfl, Parser.built_of_eval (n := 12) rfl,
      by intro x a; cases x <;> cases a <;> decide⟩, _, Parser.parse_returns (n := 40) rfl⟩
  obtain ⟨g', p', hg', hp', hpre⟩ := hpre
  refine ⟨g, p, g', p', tree, hg, hp, hg', hp', ?_, conflictFree_of_check hg hp hcf,
    C111_conflict _ _ (.inr rfl) g' hg' p' hp' (), hpre, hr⟩
  intro x
  simp [IsNonTerminal, noElse]

end Verif.Props
