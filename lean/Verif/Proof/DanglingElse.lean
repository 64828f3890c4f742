import Verif.Spec.DanglingElse
import Verif.Spec.ParseTree
import Verif.Spec.OrderedChoice
import Verif.Spec.Predicted

/-! # Statements with an optional `else` -/

namespace Verif.Else

open Verif.Spec ElseSym IfStmt

variable {L : Type}

/-! ## Words and statements -/

theorem isStmt_tokens (e : IfStmt L) : IsStmt (e.tokens.map (·.tType)) := by
  induction e with
  | plain l => exact .other
  | ifThen l s ih => exact .ifThen _ ih
  | ifElse l s l' s' ih ih' => simpa [IfStmt.tokens] using IsStmt.ifElse _ _ ih ih'

/-- Give the `else` to the last `if` without one. -/
noncomputable def attach (l' : Option L) (s' : IfStmt L) : IfStmt L → IfStmt L
  | .plain l => .plain l
  | .ifThen l s => open Classical in if s.Open then .ifThen l (attach l' s' s) else .ifElse l s l' s'
  | .ifElse l a m b => .ifElse l a m (attach l' s' b)

theorem attach_spec (l' : Option L) (s' : IfStmt L) (hs' : s'.Nearest) (e : IfStmt L) (ho : e.Open) (hn : e.Nearest) :
    (attach l' s' e).tokens = e.tokens ++ ⟨l', els⟩ :: s'.tokens ∧ (attach l' s' e).Nearest := by
  induction e with
  | plain l => exact ho.elim
  | ifThen l s ih =>
    by_cases h : s.Open
    · have := ih h hn
      simp [attach, h, IfStmt.tokens, this.1, Nearest, this.2]
    · have : attach l' s' (.ifThen l s) = .ifElse l s l' s' := by rw [attach, if_neg h]
      rw [this]
      exact ⟨rfl, h, hn, hs'⟩
  | ifElse l a m b _ ih =>
    have := ih ho hn.2.2
    simp only [attach, IfStmt.tokens, this.1, Nearest]
    exact ⟨by simp, hn.1, hn.2.1, this.2⟩

theorem no_stop (e : IfStmt L) : ∀ t ∈ e.tokens, t.tType ≠ stop := by
  induction e with
  | plain l => simp [IfStmt.tokens]
  | ifThen l s ih => simpa [IfStmt.tokens] using ih
  | ifElse l s l' s' ih ih' =>
    intro t ht
    simp only [IfStmt.tokens, List.cons_append, List.mem_cons, List.mem_append] at ht
    rcases ht with rfl | ht | rfl | ht
    · simp
    · exact ih t ht
    · simp
    · exact ih' t ht

theorem nearest_of_isStmt {x : List ElseSym} (h : IsStmt x) :
    ∀ w : List (Token L ElseSym), w.map (·.tType) = x → ∃ e : IfStmt L, e.Nearest ∧ e.tokens = w := by
  induction h with
  | other =>
    intro w hw
    obtain ⟨⟨l, t⟩, w', rfl, h1, h2⟩ := List.map_eq_cons_iff.1 hw
    simp only at h1
    subst h1
    rw [List.map_eq_nil_iff.1 h2]
    exact ⟨.plain l, trivial, rfl⟩
  | ifThen x _ ih =>
    intro w hw
    obtain ⟨⟨l, t⟩, w', rfl, h1, h2⟩ := List.map_eq_cons_iff.1 hw
    simp only at h1
    subst h1
    obtain ⟨e, he, rfl⟩ := ih w' h2
    exact ⟨.ifThen l e, he, rfl⟩
  | ifElse x y _ _ ihx ihy =>
    intro w hw
    rw [List.cons_append] at hw
    obtain ⟨⟨l, t⟩, w', rfl, h1, h2⟩ := List.map_eq_cons_iff.1 hw
    obtain ⟨u, r, rfl, h3, h4⟩ := List.map_eq_append_iff.1 h2
    obtain ⟨⟨l', t'⟩, v, rfl, h5, h6⟩ := List.map_eq_cons_iff.1 h4
    simp only at h1 h5
    subst h1 h5
    obtain ⟨a, ha, rfl⟩ := ihx u h3
    obtain ⟨b, hb, rfl⟩ := ihy v h6
    by_cases ho : a.Open
    · obtain ⟨h7, h8⟩ := attach_spec l' b hb a ho ha
      exact ⟨.ifThen l (attach l' b a), h8, by simp [IfStmt.tokens, h7]⟩
    · exact ⟨.ifElse l a l' b, ⟨ho, ha, hb⟩, by simp [IfStmt.tokens]⟩

/-- The statement without any `else`, and what stands behind it. -/
def spine : IfStmt L → IfStmt L × List (Token L ElseSym)
  | .plain l => (.plain l, [])
  | .ifThen l s => (.ifThen l (spine s).1, (spine s).2)
  | .ifElse l s l' s' => (.ifThen l (spine s).1, (spine s).2 ++ ⟨l', els⟩ :: s'.tokens)

/-- No `else`. -/
def NoElse : IfStmt L → Prop
  | .plain _ => True
  | .ifThen _ s => NoElse s
  | .ifElse _ _ _ _ => False

theorem spine_spec (e : IfStmt L) : NoElse (spine e).1 ∧ e.tokens = (spine e).1.tokens ++ (spine e).2 ∧
    ((spine e).2 = [] ∧ (∀ t ∈ e.tokens, t.tType ≠ els) ∨
      ∃ l r, (spine e).2 = ⟨l, els⟩ :: r) := by
  induction e with
  | plain l => simp [spine, NoElse, IfStmt.tokens]
  | ifThen l s ih =>
    obtain ⟨h1, h2, h3⟩ := ih
    refine ⟨h1, by simp [IfStmt.tokens, spine, ← h2], ?_⟩
    rcases h3 with ⟨h3, h4⟩ | h3
    · refine .inl ⟨h3, fun t ht => ?_⟩
      rcases List.mem_cons.1 ht with rfl | ht
      · simp
      · exact h4 t ht
    · exact .inr h3
  | ifElse l s l' s' ih _ =>
    obtain ⟨h1, h2, h3⟩ := ih
    refine ⟨h1, by simp [IfStmt.tokens, spine, h2], .inr ?_⟩
    rcases h3 with ⟨h3, -⟩ | ⟨m, r, h3⟩
    · exact ⟨l', s'.tokens, by simp [spine, h3]⟩
    · exact ⟨m, r ++ ⟨l', els⟩ :: s'.tokens, by simp [spine, h3]⟩

theorem mem_first {p : Production ElseSym} (h : p ∈ elseFirst) : p = ⟨start, [stmt, stop]⟩ ∨ p = ⟨stmt, [other]⟩ ∨
    p = ⟨stmt, [iff, stmt, tail]⟩ ∨ p = ⟨tail, [els, stmt]⟩ ∨ p = ⟨tail, [empty]⟩ := by
  simpa [elseFirst] using h

theorem mem_last {p : Production ElseSym} : p ∈ elseLast ↔ p ∈ elseFirst := by
  simp only [elseFirst, elseLast, List.mem_cons, List.not_mem_nil, or_false, or_comm (b := p = ⟨tail, [els, stmt]⟩)]

theorem nt_first (x : ElseSym) : IsNonTerminal elseFirst x ↔ x = start ∨ x = stmt ∨ x = tail := by
  constructor
  · rintro ⟨p, hp, rfl⟩
    rcases mem_first hp with rfl | rfl | rfl | rfl | rfl <;> simp
  · rintro (rfl | rfl | rfl)
    · exact ⟨⟨start, [stmt, stop]⟩, by simp [elseFirst], rfl⟩
    · exact ⟨⟨stmt, [other]⟩, by simp [elseFirst], rfl⟩
    · exact ⟨⟨tail, [empty]⟩, by simp [elseFirst], rfl⟩

/-! ## The search -/

/-- What is used of the grammar and its table. -/
structure Table (ps : List (Production ElseSym)) (c : ElseSym → ElseSym → List (List ElseSym))
    (alts : List (List ElseSym)) : Prop where
  nt : ∀ x, IsNonTerminal ps x ↔ x = start ∨ x = stmt ∨ x = tail
  start_other : c start other = [[stmt, stop]]
  start_iff : c start iff = [[stmt, stop]]
  stmt_other : c stmt other = [[other]]
  stmt_iff : c stmt iff = [[iff, stmt, tail]]
  tail_els : c tail els = alts
  tail_stop : c tail stop = [[empty]]

variable {ps : List (Production ElseSym)} {c : ElseSym → ElseSym → List (List ElseSym)} {alts : List (List ElseSym)}
  {tokens : List (Token L ElseSym)}

theorem at_pos {pos : Nat} {t : Token L ElseSym} {r : List (Token L ElseSym)} (h : tokens.drop pos = t :: r) :
    tokens[pos]? = some t ∧ tokens.drop (pos + 1) = r := by
  constructor
  · have := List.getElem?_drop (xs := tokens) (i := pos) (j := 0)
    rw [h] at this
    simpa using this.symm
  · rw [← List.drop_drop, h]
    rfl

theorem drop_add {pos : Nat} {w r : List (Token L ElseSym)} (h : tokens.drop pos = w ++ r) :
    tokens.drop (pos + w.length) = r := by
  rw [← List.drop_drop, h]
  simp

theorem seq_terminal (C : Table ps c alts) {x : ElseSym} (hx : x ≠ start ∧ x ≠ stmt ∧ x ≠ tail ∧ x ≠ empty)
    {l : Option L} {pos q : Nat} {r : List (Token L ElseSym)} {xs : List ElseSym} {ns : List (Node L ElseSym)}
    (h : tokens.drop pos = ⟨l, x⟩ :: r) (hs : Seq empty ps c tokens xs (pos + 1) (.found (ns, q))) :
    Seq empty ps c tokens (x :: xs) pos (.found (.mk [] ⟨l, x⟩ :: ns, q)) :=
  Seq.terminal xs pos ⟨l, x⟩ _ (fun hn => by
    rcases (C.nt _).1 hn with h | h | h
    · exact hx.1 h
    · exact hx.2.1 h
    · exact hx.2.2.1 h) hx.2.2.2 (at_pos h).1 hs

/-- The tail of an `if` without `else`. -/
theorem seq_tail_empty (C : Table ps c alts) {pos : Nat} {t : Token L ElseSym} {r : List (Token L ElseSym)}
    (h : tokens.drop pos = t :: r) (more : List (List ElseSym)) (ht : c tail t.tType = [empty] :: more) :
    Seq empty ps c tokens [tail] pos (.found ([.mk [.mk [] ⟨none, empty⟩] ⟨none, tail⟩], pos)) := by
  refine .nonTerminal tail [] pos t _ ((C.nt _).2 (by simp)) (at_pos h).1 ?_
  rw [ht]
  exact .found tail [] pos _ more _ pos pos [] (.here tail pos [empty] more _ pos (.eps [] pos _ (.nil pos))) (.nil pos)

theorem predicted_terminal {cand : ElseSym → ElseSym → List (List ElseSym)} {x : ElseSym}
    (hx : x ≠ start ∧ x ≠ stmt ∧ x ≠ tail ∧ x ≠ empty) {l : Option L} {pos : Nat} {r : List (Token L ElseSym)}
    (h : tokens.drop pos = ⟨l, x⟩ :: r) : Predicted empty elseFirst cand tokens x pos (.mk [] ⟨l, x⟩) (pos + 1) :=
  .leaf ⟨l, x⟩ pos (by simp only [nt_first]; simp [hx]) hx.2.2.2 (at_pos h).1

/-- With the `else` first, the first candidates are those of the statement with nearest `else`. -/
theorem predicted_nearest (C : Table elseFirst c [[els, stmt], [empty]]) (e : IfStmt L) :
    ∀ (pos : Nat) (t : Token L ElseSym) (r : List (Token L ElseSym)), e.Nearest →
      tokens.drop pos = e.tokens ++ t :: r → (t.tType = stop ∨ t.tType = els ∧ ¬ e.Open) →
      Predicted empty elseFirst (fun x a => (c x a).take 1) tokens stmt pos e.tree (pos + e.tokens.length) := by
  induction e with
  | plain l =>
    intro pos t r _ hd _
    refine .node stmt pos ⟨l, other⟩ [other] _ _ ((C.nt _).2 (by simp)) (at_pos hd).1 (by simp [C.stmt_other]) ?_
    exact .cons _ _ _ _ _ _ _ (predicted_terminal (by simp) hd) (.nil _)
  | ifThen l s ih =>
    intro pos t r hn hd ht
    have ht : t.tType = stop := by
      rcases ht with ht | ⟨-, ht⟩
      · exact ht
      · exact absurd trivial ht
    have hd1 := (at_pos hd).2
    have hq : pos + 1 + s.tokens.length = pos + (IfStmt.ifThen l s).tokens.length := by simp [IfStmt.tokens]; omega
    rw [← hq]
    refine .node stmt pos ⟨l, iff⟩ [iff, stmt, tail] _ _ ((C.nt _).2 (by simp)) (at_pos hd).1 (by simp [C.stmt_iff]) ?_
    refine .cons _ _ _ _ _ _ _ (predicted_terminal (by simp) hd) (.cons _ _ _ _ _ _ _ (ih (pos + 1) t r hn hd1 (.inl ht))
      (.cons _ _ _ _ _ _ _ ?_ (.nil _)))
    refine .node tail _ t [empty] _ _ ((C.nt _).2 (by simp)) (at_pos (drop_add hd1)).1 (by simp [ht, C.tail_stop]) ?_
    exact .cons _ _ _ _ _ _ _ (.eps _) (.nil _)
  | ifElse l s l' s' ih ih' =>
    intro pos t r hn hd ht
    obtain ⟨ho, hn, hn'⟩ := hn
    have hd0 : tokens.drop pos = ⟨l, iff⟩ :: (s.tokens ++ ⟨l', els⟩ :: (s'.tokens ++ t :: r)) := by
      rw [hd]
      simp [IfStmt.tokens]
    have hd1 := (at_pos hd0).2
    have hd2 := drop_add hd1
    have hd3 := (at_pos hd2).2
    have hq : pos + 1 + s.tokens.length + 1 + s'.tokens.length = pos + (IfStmt.ifElse l s l' s').tokens.length := by
      simp [IfStmt.tokens]; omega
    rw [← hq]
    refine .node stmt pos ⟨l, iff⟩ [iff, stmt, tail] _ _ ((C.nt _).2 (by simp)) (at_pos hd0).1 (by simp [C.stmt_iff]) ?_
    refine .cons _ _ _ _ _ _ _ (predicted_terminal (by simp) hd0) (.cons _ _ _ _ _ _ _
      (ih (pos + 1) _ _ hn hd1 (.inr ⟨rfl, ho⟩)) (.cons _ _ _ _ _ _ _ ?_ (.nil _)))
    refine .node tail _ ⟨l', els⟩ [els, stmt] _ _ ((C.nt _).2 (by simp)) (at_pos hd2).1 (by simp [C.tail_els]) ?_
    exact .cons _ _ _ _ _ _ _ (predicted_terminal (by simp) hd2) (.cons _ _ _ _ _ _ _ (ih' _ t r hn' hd3 ht) (.nil _))

theorem predicted_whole (C : Table elseFirst c [[els, stmt], [empty]]) (e : IfStmt L) (he : e.Nearest) (l : Option L)
    (r : List (Token L ElseSym)) : Predicted empty elseFirst (fun x a => (c x a).take 1) (e.tokens ++ ⟨l, stop⟩ :: r) start 0
      (e.whole l).root (0 + e.tokens.length + 1) := by
  have h1 := predicted_nearest (tokens := e.tokens ++ ⟨l, stop⟩ :: r) C e 0 ⟨l, stop⟩ r he rfl (.inl rfl)
  have h2 : (e.tokens ++ ⟨l, stop⟩ :: r).drop (0 + e.tokens.length) = ⟨l, stop⟩ :: r := by simp
  have h3 : ∃ u : Token L ElseSym, (e.tokens ++ ⟨l, stop⟩ :: r)[0]? = some u ∧ [stmt, stop] ∈ (c start u.tType).take 1 := by
    cases e with
    | plain l => exact ⟨⟨l, other⟩, by simp [IfStmt.tokens], by simp [C.start_other]⟩
    | ifThen l s => exact ⟨⟨l, iff⟩, by simp [IfStmt.tokens], by simp [C.start_iff]⟩
    | ifElse l s l' s' => exact ⟨⟨l, iff⟩, by simp [IfStmt.tokens], by simp [C.start_iff]⟩
  obtain ⟨u, h4, h5⟩ := h3
  refine .node start 0 u [stmt, stop] _ _ ((C.nt _).2 (by simp)) h4 h5 ?_
  exact .cons _ _ _ _ _ _ _ h1 (.cons _ _ _ _ _ _ _ (predicted_terminal (by simp) h2) (.nil _))

theorem found_noElse (C : Table ps c [[empty], [els, stmt]]) (e : IfStmt L) :
    ∀ (pos : Nat) (t : Token L ElseSym) (r : List (Token L ElseSym)), NoElse e →
      tokens.drop pos = e.tokens ++ t :: r → (t.tType = stop ∨ t.tType = els) →
      ∃ u, (u.tType = other ∨ u.tType = iff) ∧ tokens[pos]? = some u ∧
        Choice empty ps c tokens stmt pos (c stmt u.tType) (.found (e.tree, pos + e.tokens.length, [])) := by
  induction e with
  | plain l =>
    intro pos t r _ hd _
    refine ⟨⟨l, other⟩, .inl rfl, (at_pos hd).1, ?_⟩
    simp only [C.stmt_other]
    exact .here stmt pos [other] [] _ _ (seq_terminal C (by simp) hd (.nil _))
  | ifThen l s ih =>
    intro pos t r hn hd ht
    have hd1 := (at_pos hd).2
    obtain ⟨u, -, hu, hc⟩ := ih (pos + 1) t r hn hd1 ht
    refine ⟨⟨l, iff⟩, .inr rfl, (at_pos hd).1, ?_⟩
    simp only [C.stmt_iff]
    have hq : pos + 1 + s.tokens.length = pos + (IfStmt.ifThen l s).tokens.length := by simp [IfStmt.tokens]; omega
    rw [← hq]
    refine .here stmt pos _ [] _ _ (seq_terminal C (by simp) hd ?_)
    refine .nonTerminal stmt _ _ u _ ((C.nt _).2 (by simp)) hu (.found _ _ _ _ _ _ _ _ _ hc ?_)
    rcases ht with ht | ht
    · exact seq_tail_empty C (drop_add hd1) [] (by rw [ht, C.tail_stop])
    · exact seq_tail_empty C (drop_add hd1) [[els, stmt]] (by rw [ht, C.tail_els])
  | ifElse l s l' s' ih ih' => intro _ _ _ h; exact h.elim

theorem start_cand (C : Table ps c alts) {u : Token L ElseSym} (hu : u.tType = other ∨ u.tType = iff) :
    c start u.tType = [[stmt, stop]] := by
  rcases hu with h | h <;> rw [h]
  · exact C.start_other
  · exact C.start_iff

theorem start_found (C : Table ps c alts) {e : IfStmt L} {u : Token L ElseSym} {l : Option L} {r : List (Token L ElseSym)}
    (hd : tokens = e.tokens ++ ⟨l, stop⟩ :: r) (hu : u.tType = other ∨ u.tType = iff) (h0 : tokens[0]? = some u)
    (hc : Choice empty ps c tokens stmt 0 (c stmt u.tType) (.found (e.tree, 0 + e.tokens.length, []))) :
    Choice empty ps c tokens start 0 (c start u.tType) (.found ((e.whole l).root, 0 + e.tokens.length + 1, [])) := by
  rw [start_cand C hu]
  refine .here start 0 _ [] _ _ (.nonTerminal stmt _ _ u _ ((C.nt _).2 (by simp)) h0 (.found _ _ _ _ _ _ _ _ _ hc ?_))
  exact seq_terminal C (by simp) (drop_add (by simpa using hd)) (.nil _)

theorem start_failed (C : Table ps c alts) {e : IfStmt L} {u t : Token L ElseSym} {r : List (Token L ElseSym)}
    (hd : tokens = e.tokens ++ t :: r) (ht : t.tType ≠ stop) (hu : u.tType = other ∨ u.tType = iff)
    (h0 : tokens[0]? = some u)
    (hc : Choice empty ps c tokens stmt 0 (c stmt u.tType) (.found (e.tree, 0 + e.tokens.length, []))) :
    Choice empty ps c tokens start 0 (c start u.tType) .failed := by
  rw [start_cand C hu]
  refine .next start 0 _ [] _ (.nonTerminal stmt _ _ u _ ((C.nt _).2 (by simp)) h0
    (.again _ _ _ _ _ _ _ _ hc ?_ (.failed _ _ _ _ (.none _ _)))) (.none _ _)
  refine .mismatch stop [] _ (by rw [C.nt]; simp) (by simp) fun t' ht' => ?_
  rw [(at_pos (drop_add (tokens := tokens) (pos := 0) (by simpa using hd))).1] at ht'
  rw [← Option.some.inj ht']
  exact ht

/-! ## Trees -/

/-- What the trees of the symbols are. -/
def Good : ElseSym → List (Token L ElseSym) → Node L ElseSym → Prop
  | stmt, w, t => ∃ e : IfStmt L, w = e.tokens ∧ t = e.tree
  | tail, w, t => (w = [] ∧ t = .mk [.mk [] ⟨none, empty⟩] ⟨none, tail⟩) ∨
      ∃ l, ∃ e : IfStmt L, w = ⟨l, els⟩ :: e.tokens ∧ t = .mk [.mk [] ⟨l, els⟩, e.tree] ⟨none, tail⟩
  | start, w, t => ∃ e : IfStmt L, ∃ l, w = e.tokens ++ [⟨l, stop⟩] ∧ t = (e.whole l).root
  | empty, w, t => w = [] ∧ t = .mk [] ⟨none, empty⟩
  | x, w, t => ∃ l, w = [⟨l, x⟩] ∧ t = .mk [] ⟨l, x⟩

/-- The same for lists of symbols. -/
def GoodAll : List ElseSym → List (Token L ElseSym) → List (Node L ElseSym) → Prop
  | [], w, ts => w = [] ∧ ts = []
  | x :: xs, w, ts => ∃ w1 w2 t ts', w = w1 ++ w2 ∧ ts = t :: ts' ∧ Good x w1 t ∧ GoodAll xs w2 ts'

theorem nt_last (x : ElseSym) : IsNonTerminal elseLast x ↔ x = start ∨ x = stmt ∨ x = tail := by
  rw [← nt_first]
  simp only [IsNonTerminal, mem_last]

mutual
theorem good_tree {x : ElseSym} {w : List (Token L ElseSym)} {t : Node L ElseSym} (h : IsTree empty elseFirst x w t) :
    Good x w t := by
  cases h with
  | leaf t h1 h2 =>
    rw [nt_first] at h1
    obtain ⟨l, x⟩ := t
    cases x <;> first
      | exact ⟨l, rfl, rfl⟩
      | exact absurd rfl h2
      | exact absurd (by simp) h1
  | eps => exact ⟨rfl, rfl⟩
  | node p w ns hp hf =>
    have hF := good_forest hf
    rcases mem_first hp with rfl | rfl | rfl | rfl | rfl
    · obtain ⟨_, _, _, _, rfl, rfl, ⟨e, rfl, rfl⟩, _, _, _, _, rfl, rfl, ⟨l, rfl, rfl⟩, rfl, rfl⟩ := hF
      exact ⟨e, l, by simp, rfl⟩
    · obtain ⟨_, _, _, _, rfl, rfl, ⟨l, rfl, rfl⟩, rfl, rfl⟩ := hF
      exact ⟨.plain l, by simp [IfStmt.tokens], rfl⟩
    · obtain ⟨_, _, _, _, rfl, rfl, ⟨l, rfl, rfl⟩, _, _, _, _, rfl, rfl, ⟨e, rfl, rfl⟩, _, _, _, _, rfl, rfl, hg, rfl, rfl⟩ := hF
      rcases hg with ⟨rfl, rfl⟩ | ⟨l', e', rfl, rfl⟩
      · exact ⟨.ifThen l e, by simp [IfStmt.tokens], rfl⟩
      · exact ⟨.ifElse l e l' e', by simp [IfStmt.tokens], rfl⟩
    · obtain ⟨_, _, _, _, rfl, rfl, ⟨l, rfl, rfl⟩, _, _, _, _, rfl, rfl, ⟨e, rfl, rfl⟩, rfl, rfl⟩ := hF
      exact .inr ⟨l, e, by simp, rfl⟩
    · obtain ⟨_, _, _, _, rfl, rfl, ⟨rfl, rfl⟩, rfl, rfl⟩ := hF
      exact .inl ⟨by simp, rfl⟩
theorem good_forest {xs : List ElseSym} {w : List (Token L ElseSym)} {ts : List (Node L ElseSym)}
    (h : IsForest empty elseFirst xs w ts) : GoodAll xs w ts := by
  cases h with
  | nil => exact ⟨rfl, rfl⟩
  | cons x xs w w' t ts h1 h2 => exact ⟨w, w', t, ts, rfl, rfl, good_tree h1, good_forest h2⟩
end

theorem tree_inj {e e' : IfStmt L} (h : e.tree = e'.tree) : e = e' := by
  induction e generalizing e' with
  | plain l => cases e' <;> simp_all [IfStmt.tree]
  | ifThen l s ih =>
    cases e' <;> simp [IfStmt.tree] at h
    obtain ⟨rfl, h⟩ := h
    rw [ih h]
  | ifElse l s l' s' ih ih' =>
    cases e' <;> simp [IfStmt.tree] at h
    obtain ⟨rfl, h1, rfl, h2⟩ := h
    rw [ih h1, ih' h2]

theorem leaf {x : ElseSym} (l : Option L) (h1 : x ≠ start ∧ x ≠ stmt ∧ x ≠ tail ∧ x ≠ empty) :
    IsTree empty elseFirst x [⟨l, x⟩] (.mk [] ⟨l, x⟩) :=
  .leaf ⟨l, x⟩ (by rw [nt_first]; simp [h1]) h1.2.2.2

theorem isTree_tree (e : IfStmt L) : IsTree empty elseFirst stmt e.tokens e.tree := by
  have snoc : ∀ {x : ElseSym} {w : List (Token L ElseSym)} {t}, IsTree empty elseFirst x w t →
      IsForest empty elseFirst [x] w [t] := by
    intro x w t h
    have := IsForest.cons x [] w [] t [] h .nil
    rwa [List.append_nil] at this
  induction e with
  | plain l => exact .node ⟨stmt, [other]⟩ _ _ (by simp [elseFirst]) (snoc (leaf l (by simp)))
  | ifThen l s ih =>
    refine .node ⟨stmt, [iff, stmt, tail]⟩ _ [.mk [] ⟨l, iff⟩, s.tree, .mk [.mk [] ⟨none, empty⟩] ⟨none, tail⟩]
      (by simp [elseFirst]) (.cons iff _ [⟨l, iff⟩] s.tokens _ _ (leaf l (by simp)) ?_)
    have h : IsTree empty elseFirst tail ([] : List (Token L ElseSym)) (.mk [.mk [] ⟨none, empty⟩] ⟨none, tail⟩) :=
      .node ⟨tail, [empty]⟩ [] _ (by simp [elseFirst]) (snoc .eps)
    have := IsForest.cons stmt [tail] s.tokens [] _ _ ih (snoc h)
    rwa [List.append_nil] at this
  | ifElse l s l' s' ih ih' =>
    refine .node ⟨stmt, [iff, stmt, tail]⟩ _ [.mk [] ⟨l, iff⟩, s.tree, .mk [.mk [] ⟨l', els⟩, s'.tree] ⟨none, tail⟩]
      (by simp [elseFirst]) (.cons iff _ [⟨l, iff⟩] (s.tokens ++ ⟨l', els⟩ :: s'.tokens) _ _ (leaf l (by simp))
        (.cons stmt _ s.tokens (⟨l', els⟩ :: s'.tokens) _ _ ih (snoc ?_)))
    exact .node ⟨tail, [els, stmt]⟩ _ _ (by simp [elseFirst])
      (.cons els _ [⟨l', els⟩] s'.tokens _ _ (leaf l' (by simp)) (snoc ih'))

theorem trees (w : List (Token L ElseSym)) (t : Node L ElseSym) :
    IsTree empty elseFirst start w t ↔ ∃ e : IfStmt L, ∃ l, w = e.tokens ++ [⟨l, stop⟩] ∧ t = (e.whole l).root := by
  refine ⟨good_tree, ?_⟩
  rintro ⟨e, l, rfl, rfl⟩
  refine .node ⟨start, [stmt, stop]⟩ _ [e.tree, .mk [] ⟨l, stop⟩] (by simp [elseFirst])
    (.cons stmt _ e.tokens [⟨l, stop⟩] _ _ (isTree_tree e) ?_)
  exact .cons stop [] [⟨l, stop⟩] [] _ _ (leaf l (by simp)) .nil

end Verif.Else
