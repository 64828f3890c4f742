import Verif.Spec.Operators
import Verif.Spec.ParseTree
import Verif.Spec.EndMarker
import Verif.Spec.LL1
import Verif.Proof.Derivation
import Verif.Proof.Rank

/-! # Expressions with operators: the grammar -/

namespace Verif.Ops

open Verif.Spec OpSym

variable {n : Nat}

theorem mem_iff {p : Production OpSym} : p ∈ opsPs n ↔ p = ⟨start, [level 0, stop]⟩ ∨
    (∃ i, i < n ∧ (p = ⟨level i, [level (i + 1), rest i]⟩ ∨ p = ⟨rest i, [op i, level (i + 1), rest i]⟩ ∨
      p = ⟨rest i, [empty]⟩)) ∨ p = ⟨level n, [atom]⟩ ∨ p = ⟨level n, [lp, level 0, rp]⟩ := by
  simp [opsPs, levelPs]

theorem nt_iff {x : OpSym} : IsNonTerminal (opsPs n) x ↔ x = start ∨ (∃ i, i ≤ n ∧ x = level i) ∨ ∃ i, i < n ∧ x = rest i := by
  constructor
  · rintro ⟨p, hp, rfl⟩
    rcases mem_iff.1 hp with rfl | ⟨i, hi, rfl | rfl | rfl⟩ | rfl | rfl
    · exact .inl rfl
    · exact .inr (.inl ⟨i, by omega, rfl⟩)
    · exact .inr (.inr ⟨i, hi, rfl⟩)
    · exact .inr (.inr ⟨i, hi, rfl⟩)
    · exact .inr (.inl ⟨n, by omega, rfl⟩)
    · exact .inr (.inl ⟨n, by omega, rfl⟩)
  · rintro (rfl | ⟨i, hi, rfl⟩ | ⟨i, hi, rfl⟩)
    · exact ⟨_, mem_iff.2 (.inl rfl), rfl⟩
    · by_cases h : i < n
      · exact ⟨_, mem_iff.2 (.inr (.inl ⟨i, h, .inl rfl⟩)), rfl⟩
      · obtain rfl : i = n := by omega
        exact ⟨_, mem_iff.2 (.inr (.inr (.inl rfl))), rfl⟩
    · exact ⟨_, mem_iff.2 (.inr (.inl ⟨i, hi, .inr (.inl rfl)⟩)), rfl⟩

theorem wellFormed : WellFormed empty (opsPs n) := by
  intro p hp
  rcases mem_iff.1 hp with rfl | ⟨i, hi, rfl | rfl | rfl⟩ | rfl | rfl <;> simp

/-- The nullable symbols. -/
def Null (x : OpSym) : Prop := ∃ i, x = rest i

/-- What the symbols begin with. -/
def Begins : OpSym → OpSym → Prop
  | level _, a => a = atom ∨ a = lp
  | start, a => a = atom ∨ a = lp
  | rest i, a => a = op i
  | x, a => a = x

/-- What follows the symbols. -/
def Follows : OpSym → OpSym → Prop
  | level i, a => a = rp ∨ a = stop ∨ ∃ j, j < i ∧ a = op j
  | rest i, a => a = rp ∨ a = stop ∨ ∃ j, j < i ∧ a = op j
  | _, _ => False

theorem null_closed : ∀ p ∈ opsPs n, (∀ x ∈ rhs empty p, Null x) → Null p.input := by
  intro p hp h
  rcases mem_iff.1 hp with rfl | ⟨i, hi, rfl | rfl | rfl⟩ | rfl | rfl
  · have := h (level 0) (by simp [rhs]); simp [Null] at this
  · have := h (level (i + 1)) (by simp [rhs]); simp [Null] at this
  · exact ⟨i, rfl⟩
  · exact ⟨i, rfl⟩
  · have := h atom (by simp [rhs]); simp [Null] at this
  · have := h lp (by simp [rhs]); simp [Null] at this

theorem null {x : OpSym} (h : Nullable empty (opsPs n) x) : Null x := nullable_of_closed Null null_closed h

theorem begins {x a : OpSym} (h : CanStart empty (opsPs n) x a) : Begins x a := by
  refine canStart_of_closed Null Begins null_closed ?_ ?_ h
  · intro p hp w y v e hw a ha
    rcases mem_iff.1 hp with rfl | ⟨i, hi, rfl | rfl | rfl⟩ | rfl | rfl <;>
      (simp only [rhs] at e; rcases w with _ | ⟨w1, w⟩)
    all_goals try (simp at e; done)
    all_goals try
      (have := hw w1 (by simp); simp at e; obtain ⟨rfl, -⟩ := e; simp [Null] at this; done)
    all_goals (simp at e; obtain ⟨rfl, -⟩ := e; simp only [Begins] at ha ⊢)
    all_goals (first | exact ha | exact .inl ha | exact .inr ha)
  · intro a ha hne
    have hn := ha.2
    rw [nt_iff] at hn
    obtain ⟨⟨p, hp, hx⟩, -⟩ := ha
    rcases mem_iff.1 hp with rfl | ⟨i, hi, rfl | rfl | rfl⟩ | rfl | rfl <;> simp at hx
    · rcases hx with rfl | rfl
      · exact absurd (.inr (.inl ⟨0, by omega, rfl⟩)) hn
      · rfl
    · rcases hx with rfl | rfl
      · exact absurd (.inr (.inl ⟨i + 1, by omega, rfl⟩)) hn
      · exact absurd (.inr (.inr ⟨i, hi, rfl⟩)) hn
    · rcases hx with rfl | rfl | rfl
      · rfl
      · exact absurd (.inr (.inl ⟨i + 1, by omega, rfl⟩)) hn
      · exact absurd (.inr (.inr ⟨i, hi, rfl⟩)) hn
    · exact absurd hx hne
    · subst hx; rfl
    · rcases hx with rfl | rfl | rfl
      · rfl
      · exact absurd (.inr (.inl ⟨0, by omega, rfl⟩)) hn
      · rfl

theorem follows {x a : OpSym} (hx : IsNonTerminal (opsPs n) x) (h : CanFollow empty (opsPs n) x a) : Follows x a := by
  have hterm : ∀ y, y = stop ∨ y = rp ∨ (∃ i, y = op i) ∨ (∃ i, y = level i) → ¬ Nullable empty (opsPs n) y := by
    intro y hy hc
    obtain ⟨i, rfl⟩ := null hc
    simp at hy
  refine canFollow_of_closed Follows ?_ ?_ hx h
  · intro p hp u x t a e hx hs
    rcases mem_iff.1 hp with rfl | ⟨i, hi, rfl | rfl | rfl⟩ | rfl | rfl <;>
      (simp only [rhs] at e; rcases u with _ | ⟨u1, _ | ⟨u2, _ | ⟨u3, u⟩⟩⟩)
    all_goals try (simp at e; done)
    all_goals (simp at e)
    all_goals try (obtain ⟨rfl, rfl⟩ := e)
    all_goals try (obtain ⟨rfl, rfl, rfl⟩ := e)
    all_goals try (obtain ⟨rfl, rfl, rfl, rfl⟩ := e)
    all_goals try (exact absurd hs not_strFirst_nil)
    all_goals try (rw [nt_iff] at hx; simp at hx; done)
    · rcases strFirst_cons.1 hs with hs | ⟨-, hs⟩
      · have := begins hs
        simp only [Begins] at this
        simp [Follows, this]
      · exact absurd hs not_strFirst_nil
    · rcases strFirst_cons.1 hs with hs | ⟨-, hs⟩
      · have := begins hs
        simp only [Begins] at this
        simp [Follows, this]
      · exact absurd hs not_strFirst_nil
    · rcases strFirst_cons.1 hs with hs | ⟨-, hs⟩
      · have := begins hs
        simp only [Begins] at this
        simp [Follows, this]
      · exact absurd hs not_strFirst_nil
    · rcases strFirst_cons.1 hs with hs | ⟨-, hs⟩
      · have := begins hs
        simp only [Begins] at this
        simp [Follows, this]
      · exact absurd hs not_strFirst_nil
  · intro p hp u x t a e hx hs hf
    rcases mem_iff.1 hp with rfl | ⟨i, hi, rfl | rfl | rfl⟩ | rfl | rfl <;>
      (simp only [rhs] at e; rcases u with _ | ⟨u1, _ | ⟨u2, _ | ⟨u3, u⟩⟩⟩)
    all_goals try (simp at e; done)
    all_goals (simp at e)
    all_goals try (obtain ⟨rfl, rfl⟩ := e)
    all_goals try (obtain ⟨rfl, rfl, rfl⟩ := e)
    all_goals try (obtain ⟨rfl, rfl, rfl, rfl⟩ := e)
    all_goals try (rw [nt_iff] at hx; simp at hx; done)
    all_goals try (simp [Follows] at hf; done)
    all_goals simp only [Follows] at hf ⊢
    all_goals try exact hf
    all_goals try
      (rcases hf with rfl | rfl | ⟨j, hj, rfl⟩ <;> simp <;> omega)
    · exact absurd (hs rp (by simp)) (hterm _ (by simp))

theorem noAdjacent : NoAdjacentRepeat (opsPs n) := by
  intro p hp u x v e _
  rcases mem_iff.1 hp with rfl | ⟨i, hi, rfl | rfl | rfl⟩ | rfl | rfl <;>
    (rcases u with _ | ⟨u1, _ | ⟨u2, u⟩⟩ <;> simp at e)
  all_goals try (obtain ⟨rfl, h, -⟩ := e; simp at h; done)
  all_goals try (obtain ⟨-, rfl, h, -⟩ := e; simp at h; done)
  all_goals (obtain ⟨-, -, h⟩ := e; have := congrArg List.length h; simp at this; omega)

theorem endMarked : EndMarked empty start stop (opsPs n) := by
  refine ⟨by simp, by rw [nt_iff]; simp, ?_, ?_, ?_⟩
  · intro p hp
    rcases mem_iff.1 hp with rfl | ⟨i, hi, rfl | rfl | rfl⟩ | rfl | rfl <;> simp
  · intro p hp
    rcases mem_iff.1 hp with rfl | ⟨i, hi, rfl | rfl | rfl⟩ | rfl | rfl <;> simp
    exact ⟨[level 0], rfl, by simp⟩
  · intro p hp
    rcases mem_iff.1 hp with rfl | ⟨i, hi, rfl | rfl | rfl⟩ | rfl | rfl <;> simp

theorem notLeftRecursive : NotLeftRecursive empty (opsPs n) := by
  refine notLeftRecursive_of_rank (fun x => match x with | rest _ => true | _ => false)
    (fun x => match x with | start => n + 2 | level i => n + 1 - i | rest _ => 1 | _ => 0) ?_
  simp only [rankOk, Bool.and_eq_true, List.all_eq_true]
  constructor <;> intro p hp
  · rcases mem_iff.1 hp with rfl | ⟨i, hi, rfl | rfl | rfl⟩ | rfl | rfl <;> simp [leadOk, rhs] <;> omega
  · rcases mem_iff.1 hp with rfl | ⟨i, hi, rfl | rfl | rfl⟩ | rfl | rfl <;> simp [rhs]

theorem leadAlone : NullableLeadAlone empty (opsPs n) := by
  intro p hp x r e hx
  obtain ⟨j, rfl⟩ := null hx
  rcases mem_iff.1 hp with rfl | ⟨i, hi, rfl | rfl | rfl⟩ | rfl | rfl <;> simp [rhs] at e

theorem isLL1 : IsLL1 empty (opsPs n) := by
  have key : ∀ p ∈ opsPs n, ∀ a, Predicts empty (opsPs n) p a →
      (StrFirst empty (opsPs n) (rhs empty p) a ∨ rhs empty p = [] ∧ Follows p.input a) := by
    rintro p hp a ⟨h1, h2, ⟨v, h3⟩ | ⟨h3, h4⟩⟩
    · exact .inl (strFirst_of_derives h1 h2 h3)
    · refine .inr ⟨?_, follows ⟨p, hp, rfl⟩ h4⟩
      have h5 := derives_nil_iff.1 h3
      rcases mem_iff.1 hp with rfl | ⟨i, hi, rfl | rfl | rfl⟩ | rfl | rfl
      · obtain ⟨j, hj⟩ := null (h5 (level 0) (by simp [rhs])); simp at hj
      · obtain ⟨j, hj⟩ := null (h5 (level (i + 1)) (by simp [rhs])); simp at hj
      · obtain ⟨j, hj⟩ := null (h5 (op i) (by simp [rhs])); simp at hj
      · simp [rhs]
      · obtain ⟨j, hj⟩ := null (h5 atom (by simp [rhs])); simp at hj
      · obtain ⟨j, hj⟩ := null (h5 lp (by simp [rhs])); simp at hj
  have hfirst : ∀ {x l a}, ¬ Null x → StrFirst empty (opsPs n) (x :: l) a → Begins x a := by
    intro x l a hx h
    rcases strFirst_cons.1 h with h | ⟨h, -⟩
    · exact begins h
    · exact absurd (null h) hx
  have hrest : ∀ {i a}, i < n → Predicts empty (opsPs n) ⟨rest i, [op i, level (i + 1), rest i]⟩ a →
      Predicts empty (opsPs n) ⟨rest i, [empty]⟩ a → False := by
    intro i a hi h1 h2
    have h3 := key _ (mem_iff.2 (.inr (.inl ⟨i, hi, .inr (.inl rfl)⟩))) a h1
    have h4 := key _ (mem_iff.2 (.inr (.inl ⟨i, hi, .inr (.inr rfl)⟩))) a h2
    simp only [rhs, List.cons.injEq, reduceCtorEq, false_and, ↓reduceIte, or_false, true_and] at h3 h4
    have h5 := hfirst (by simp [Null]) h3
    simp only [Begins] at h5
    subst h5
    rcases h4 with h4 | h4
    · exact not_strFirst_nil h4
    · simp [Follows] at h4
  unfold IsLL1 opsPs
  rw [List.pairwise_cons, List.pairwise_append, List.pairwise_flatMap]
  refine ⟨?_, ⟨?_, ?_⟩, ?_, ?_⟩
  · intro q hq e
    have : q ∈ opsPs n := by unfold opsPs; exact List.mem_cons_of_mem _ hq
    rcases mem_iff.1 this with rfl | ⟨i, hi, rfl | rfl | rfl⟩ | rfl | rfl
    all_goals try (simp at e; done)
    simp [levelPs] at hq
  · intro i hi
    have hi := List.mem_range.1 hi
    simp only [levelPs, List.pairwise_cons]
    refine ⟨fun q hq => ?_, fun q hq => ?_, by simp, .nil⟩
    · simp only [List.mem_cons, List.not_mem_nil, or_false] at hq
      rcases hq with rfl | rfl <;> simp
    · simp only [List.mem_cons, List.not_mem_nil, or_false] at hq
      subst hq
      rintro - a ⟨h1, h2⟩
      exact hrest hi h1 h2
  · refine List.pairwise_lt_range.imp fun {i j} hij => ?_
    intro x hx y hy e
    simp only [levelPs, List.mem_cons, List.not_mem_nil, or_false] at hx hy
    rcases hx with rfl | rfl | rfl <;> rcases hy with rfl | rfl | rfl <;> simp at e <;> omega
  · simp only [List.pairwise_cons]
    refine ⟨fun q hq => ?_, by simp, .nil⟩
    simp only [List.mem_cons, List.not_mem_nil, or_false] at hq
    subst hq
    rintro - a ⟨h1, h2⟩
    have h3 := key _ (mem_iff.2 (.inr (.inr (.inl rfl)))) a h1
    have h4 := key _ (mem_iff.2 (.inr (.inr (.inr rfl)))) a h2
    simp only [rhs, List.cons.injEq, reduceCtorEq, false_and, ↓reduceIte, or_false] at h3 h4
    have h5 := hfirst (by simp [Null]) h3
    have h6 := hfirst (by simp [Null]) h4
    simp only [Begins] at h5 h6
    rw [h5] at h6
    cases h6
  · intro x hx y hy e
    obtain ⟨i, hi, hx⟩ := List.mem_flatMap.1 hx
    have hi := List.mem_range.1 hi
    simp only [levelPs, List.mem_cons, List.not_mem_nil, or_false] at hx hy
    rcases hx with rfl | rfl | rfl <;> rcases hy with rfl | rfl <;> simp at e <;> omega

/-! ## Trees -/

variable {L : Type}

/-- A tree of a level over the tokens that reads as the expression. -/
def Reads (n k : Nat) (w : List (Token L OpSym)) (e : OpExpr L) : Prop :=
  ∃ t, IsTree empty (opsPs n) (level k) w t ∧ readExpr t = e

/-- Operands of the next level with the operators of this one in between. -/
def Spread (n k : Nat) (w : List (Token L OpSym)) (e : OpExpr L) : Prop :=
  ∃ w0 e0, Reads n (k + 1) w0 e0 ∧ ∃ items : List (Option L × List (Token L OpSym) × OpExpr L),
    (∀ x ∈ items, Reads n (k + 1) x.2.1 x.2.2) ∧ w = w0 ++ items.flatMap (fun x => ⟨x.1, op k⟩ :: x.2.1) ∧
      e = items.foldl (fun acc x => .bin k acc x.2.2) e0

theorem leaf {x : OpSym} (l : Option L) (h1 : ¬ IsNonTerminal (opsPs n) x) (h2 : x ≠ empty) :
    IsTree empty (opsPs n) x [⟨l, x⟩] (.mk [] ⟨l, x⟩) := .leaf ⟨l, x⟩ h1 h2

theorem chain_tree {k : Nat} (hk : k < n) (items : List (Option L × List (Token L OpSym) × OpExpr L))
    (h : ∀ x ∈ items, Reads n (k + 1) x.2.1 x.2.2) :
    ∃ r, IsTree empty (opsPs n) (rest k) (items.flatMap (fun x => ⟨x.1, op k⟩ :: x.2.1)) r ∧
      ∀ e, readRest e r = items.foldl (fun acc x => .bin k acc x.2.2) e := by
  induction items with
  | nil =>
    refine ⟨_, .node ⟨rest k, [empty]⟩ [] [.mk [] ⟨none, empty⟩] (mem_iff.2 (.inr (.inl ⟨k, hk, .inr (.inr rfl)⟩))) ?_, ?_⟩
    · exact .cons empty [] [] [] _ _ .eps .nil
    · intro e
      simp [readRest]
  | cons x items ih =>
    obtain ⟨r, h1, h2⟩ := ih fun y hy => h y (by simp [hy])
    obtain ⟨t, h3, h4⟩ := h x (by simp)
    refine ⟨_, .node ⟨rest k, [op k, level (k + 1), rest k]⟩ _ [.mk [] ⟨x.1, op k⟩, t, r]
      (mem_iff.2 (.inr (.inl ⟨k, hk, .inr (.inl rfl)⟩))) ?_, ?_⟩
    · have hl := leaf (L := L) (n := n) (x := op k) x.1 (by rw [nt_iff]; simp) (by simp)
      have h5 : IsForest empty (opsPs n) [rest k] (items.flatMap (fun x => ⟨x.1, op k⟩ :: x.2.1) ++ []) [r] :=
        .cons _ _ _ _ _ _ h1 .nil
      rw [List.append_nil] at h5
      exact .cons (op k) [level (k + 1), rest k] [⟨x.1, op k⟩] _ _ _ hl (.cons _ _ _ _ _ _ h3 h5)
    · intro e
      simp only [readRest, h2, h4, List.foldl_cons]

theorem Spread.reads {k : Nat} (hk : k < n) {w : List (Token L OpSym)} {e : OpExpr L} (h : Spread n k w e) :
    Reads n k w e := by
  obtain ⟨w0, e0, ⟨t, h1, h2⟩, items, h3, rfl, rfl⟩ := h
  obtain ⟨r, h4, h5⟩ := chain_tree hk items h3
  refine ⟨_, .node ⟨level k, [level (k + 1), rest k]⟩ _ [t, r] (mem_iff.2 (.inr (.inl ⟨k, hk, .inl rfl⟩))) ?_, ?_⟩
  · have h6 : IsForest empty (opsPs n) [rest k] (items.flatMap (fun x => ⟨x.1, op k⟩ :: x.2.1) ++ []) [r] :=
      .cons _ _ _ _ _ _ h4 .nil
    rw [List.append_nil] at h6
    exact .cons _ _ _ _ _ _ h1 h6
  · simp only [readExpr, h5, h2]

theorem Reads.spread {k : Nat} {w : List (Token L OpSym)} {e : OpExpr L} (h : Reads n (k + 1) w e) : Spread n k w e :=
  ⟨w, e, h, [], by simp, by simp, rfl⟩

theorem reads_atom (l : Option L) : Reads n n [⟨l, atom⟩] (.atom l) := by
  refine ⟨_, .node ⟨level n, [atom]⟩ _ [.mk [] ⟨l, atom⟩] (mem_iff.2 (.inr (.inr (.inl rfl)))) ?_, ?_⟩
  · exact .cons atom [] [⟨l, atom⟩] [] _ _ (leaf l (by rw [nt_iff]; simp) (by simp)) .nil
  · simp [readExpr]

theorem reads_paren {w : List (Token L OpSym)} {e : OpExpr L} (l l' : Option L) (h : Reads n 0 w e) :
    Reads n n (⟨l, lp⟩ :: w ++ [⟨l', rp⟩]) e := by
  obtain ⟨t, h1, h2⟩ := h
  refine ⟨_, .node ⟨level n, [lp, level 0, rp]⟩ _ [.mk [] ⟨l, lp⟩, t, .mk [] ⟨l', rp⟩]
    (mem_iff.2 (.inr (.inr (.inr rfl)))) ?_, ?_⟩
  · exact .cons lp [level 0, rp] [⟨l, lp⟩] _ _ _ (leaf l (by rw [nt_iff]; simp) (by simp))
      (.cons (level 0) [rp] w _ _ _ h1
        (.cons rp [] [⟨l', rp⟩] [] _ _ (leaf l' (by rw [nt_iff]; simp) (by simp)) .nil))
  · simp [readExpr, h2]

theorem Spread.bin {i : Nat} {w v : List (Token L OpSym)} {a b : OpExpr L} (l : Option L) (ha : Spread n i w a)
    (hb : Reads n (i + 1) v b) : Spread n i (w ++ ⟨l, op i⟩ :: v) (.bin i a b) := by
  obtain ⟨w0, e0, h1, items, h2, rfl, rfl⟩ := ha
  refine ⟨w0, e0, h1, items ++ [(l, v, b)], ?_, by simp, by simp⟩
  intro x hx
  rcases List.mem_append.1 hx with hx | hx
  · exact h2 x hx
  · rw [List.mem_singleton.1 hx]
    exact hb

theorem reads_level {k : Nat} {w : List (Token L OpSym)} {e : OpExpr L} (h : IsLevel n k w e) :
    Reads n k w e ∧ (k < n → Spread n k w e) := by
  induction h with
  | up k w e hk _ ih => exact ⟨ih.1.spread.reads hk, fun _ => ih.1.spread⟩
  | bin k u v l a b hk _ _ iha ihb =>
    have := (iha.2 hk).bin l ihb.1
    exact ⟨this.reads hk, fun _ => this⟩
  | atom l => exact ⟨reads_atom l, fun h => absurd h (Nat.lt_irrefl n)⟩
  | paren w l l' e _ ih => exact ⟨reads_paren l l' ih.1, fun h => absurd h (Nat.lt_irrefl n)⟩

/-- The tree of a whole input. -/
theorem whole {w : List (Token L OpSym)} {e : OpExpr L} (h : Reads n 0 w e) (l : Option L) :
    ∃ t, IsTree empty (opsPs n) start (w ++ [⟨l, stop⟩]) t ∧ readTree t = some e := by
  obtain ⟨t, h1, h2⟩ := h
  refine ⟨_, .node ⟨start, [level 0, stop]⟩ _ [t, .mk [] ⟨l, stop⟩] (mem_iff.2 (.inl rfl)) ?_, ?_⟩
  · exact .cons (level 0) [stop] w _ _ _ h1
      (.cons stop [] [⟨l, stop⟩] [] _ _ (leaf l (by rw [nt_iff]; simp) (by simp)) .nil)
  · simp [readTree, h2]

/-! ## Levels -/

theorem IsLevel.down {w : List (Token L OpSym)} {e : OpExpr L} {m : Nat} (h : IsLevel n m w e) (hm : m ≤ n) :
    ∀ k, k ≤ m → IsLevel n k w e := by
  intro k hk
  induction m with
  | zero => obtain rfl : k = 0 := by omega
            exact h
  | succ m ih =>
    by_cases e : k = m + 1
    · exact e ▸ h
    · exact ih (.up m _ _ (by omega) h) (by omega) (by omega)

theorem level_print {e : OpExpr L} (he : e.Below n) : ∀ k, k ≤ n → IsLevel n k (printExpr k e) e := by
  induction e with
  | atom l =>
    intro k hk
    simpa [printExpr] using IsLevel.down (.atom l) (Nat.le_refl n) k hk
  | bin i a b iha ihb =>
    obtain ⟨hi, ha, hb⟩ := he
    have h0 : IsLevel n i (printExpr i a ++ ⟨none, op i⟩ :: printExpr (i + 1) b) (.bin i a b) :=
      .bin i _ _ none a b hi (iha ha i (by omega)) (ihb hb (i + 1) (by omega))
    intro k hk
    by_cases hki : k ≤ i
    · simp only [printExpr, hki, if_true]
      exact IsLevel.down h0 (by omega) k hki
    · simp only [printExpr, hki, if_false]
      exact IsLevel.down (.paren _ none none _ (IsLevel.down h0 (by omega) 0 (by omega))) (Nat.le_refl n) k hk

theorem level_infix {k : Nat} {w : List (Token L OpSym)} {e : OpExpr L} (h : IsLevel n k w e) :
    InfixWord n (w.map (·.tType)) := by
  induction h with
  | up _ _ _ _ _ ih => exact ih
  | bin k u v l a b hk _ _ iha ihb => simpa using InfixWord.bin k _ _ hk iha ihb
  | atom l => exact .atom
  | paren w l l' e _ ih => simpa using InfixWord.paren _ ih

theorem level_join {i : Nat} (hi : i < n) (l : Option L) : ∀ d k, i = k + d → ∀ (u v : List (Token L OpSym)) (a b : OpExpr L),
    IsLevel n k u a → IsLevel n k v b → ∃ e, IsLevel n k (u ++ ⟨l, op i⟩ :: v) e := by
  intro d
  induction d with
  | zero =>
    intro k hk u v a b hu hv
    obtain rfl : i = k := by omega
    clear hk
    induction hv with
    | up k v b hk hv _ => exact ⟨_, .bin k _ _ l _ _ hk hu hv⟩
    | bin k v v' l' b b' hk hv hv' ih _ =>
      obtain ⟨e, he⟩ := ih hi hu
      have := IsLevel.bin k _ _ l' _ _ hk he hv'
      exact ⟨_, by simpa using this⟩
    | atom => omega
    | paren => omega
  | succ d ih =>
    intro k hk u v a b hu hv
    induction hv with
    | up k v b hk' hv _ =>
      cases hu with
      | up _ _ _ _ hu =>
        obtain ⟨e, he⟩ := ih (k + 1) (by omega) _ _ _ _ hu hv
        exact ⟨e, .up k _ _ hk' he⟩
      | bin _ u u' l' a a' _ hu hu' =>
        obtain ⟨e, he⟩ := ih (k + 1) (by omega) _ _ _ _ hu' hv
        have := IsLevel.bin k _ _ l' _ _ hk' hu he
        exact ⟨_, by simpa using this⟩
      | atom => omega
      | paren => omega
    | bin k v v' l' b b' hk' hv hv' ihv _ =>
      obtain ⟨e, he⟩ := ihv hk hu
      have := IsLevel.bin k _ _ l' _ _ hk' he hv'
      exact ⟨_, by simpa using this⟩
    | atom => omega
    | paren => omega

theorem level_of_infix {x : List OpSym} (h : InfixWord n x) :
    ∀ w : List (Token L OpSym), w.map (·.tType) = x → ∃ e, IsLevel n 0 w e := by
  induction h with
  | atom =>
    intro w hw
    obtain ⟨⟨l, t⟩, w', rfl, h1, h2⟩ := List.map_eq_cons_iff.1 hw
    simp only at h1
    subst h1
    rw [List.map_eq_nil_iff.1 h2]
    exact ⟨_, IsLevel.down (.atom l) (Nat.le_refl n) 0 (by omega)⟩
  | paren x _ ih =>
    intro w hw
    rw [List.cons_append] at hw
    obtain ⟨⟨l, t⟩, w', rfl, h1, h2⟩ := List.map_eq_cons_iff.1 hw
    obtain ⟨v, y, rfl, h3, h4⟩ := List.map_eq_append_iff.1 h2
    obtain ⟨⟨l', t'⟩, z, rfl, h5, h6⟩ := List.map_eq_cons_iff.1 h4
    simp only at h1 h5
    subst h1 h5
    obtain ⟨e, he⟩ := ih v h3
    rw [List.map_eq_nil_iff.1 h6]
    exact ⟨_, IsLevel.down (.paren v l l' e he) (Nat.le_refl n) 0 (by omega)⟩
  | bin i x y hi _ _ ihx ihy =>
    intro w hw
    obtain ⟨u, r, rfl, h3, h4⟩ := List.map_eq_append_iff.1 hw
    obtain ⟨⟨l', t'⟩, v, rfl, h5, h6⟩ := List.map_eq_cons_iff.1 h4
    simp only at h5
    subst h5
    obtain ⟨a, ha⟩ := ihx u h3
    obtain ⟨b, hb⟩ := ihy v h6
    exact level_join hi l' i 0 (by omega) u v a b ha hb

/-- The words of the symbols. -/
def Good (n : Nat) : OpSym → List OpSym → Prop
  | level _, w => InfixWord n w
  | rest _, w => ∀ u, InfixWord n u → InfixWord n (u ++ w)
  | start, w => ∃ v, InfixWord n v ∧ w = v ++ [stop]
  | empty, w => w = []
  | x, w => w = [x]

/-- The words of lists of symbols. -/
def GoodAll (n : Nat) : List OpSym → List OpSym → Prop
  | [], w => w = []
  | x :: xs, w => ∃ w1 w2, w = w1 ++ w2 ∧ (x = start ∨ (∃ i, i ≤ n ∧ x = level i) ∨ (∃ i, i < n ∧ x = rest i) ∨
      (x ≠ start ∧ (∀ i, x ≠ level i) ∧ ∀ i, x ≠ rest i) → Good n x w1) ∧ GoodAll n xs w2

mutual
theorem good_tree {x : OpSym} {w : List (Token L OpSym)} {t : Node L OpSym} (h : IsTree empty (opsPs n) x w t) :
    x = start ∨ (∃ i, i ≤ n ∧ x = level i) ∨ (∃ i, i < n ∧ x = rest i) ∨ (x ≠ start ∧ (∀ i, x ≠ level i) ∧ ∀ i, x ≠ rest i) →
      Good n x (w.map (·.tType)) := by
  cases h with
  | leaf t h1 h2 =>
    rintro (h | ⟨i, hi, h⟩ | ⟨i, hi, h⟩ | ⟨ha, hb, hc⟩)
    · exact absurd (nt_iff.2 (.inl h)) h1
    · exact absurd (nt_iff.2 (.inr (.inl ⟨i, hi, h⟩))) h1
    · exact absurd (nt_iff.2 (.inr (.inr ⟨i, hi, h⟩))) h1
    · obtain ⟨l, x⟩ := t
      cases x with
      | empty => exact absurd rfl h2
      | start => exact absurd rfl ha
      | level i => exact absurd rfl (hb i)
      | rest i => exact absurd rfl (hc i)
      | _ => rfl
  | eps => intro _; rfl
  | node p w ns hp hf =>
    intro _
    have hF := good_forest hf
    rcases mem_iff.1 hp with rfl | ⟨i, hi, rfl | rfl | rfl⟩ | rfl | rfl
    · obtain ⟨w1, w2, e, h1, w3, w4, e', h2, e''⟩ := hF
      have h1 := h1 (.inr (.inl ⟨0, by omega, rfl⟩))
      have h2 := h2 (by simp)
      simp only [Good] at h1 h2
      exact ⟨w1, h1, by rw [e, e', h2, e'']; simp⟩
    · obtain ⟨w1, w2, e, h1, w3, w4, e', h2, e''⟩ := hF
      have h1 := h1 (.inr (.inl ⟨i + 1, by omega, rfl⟩))
      have h2 := h2 (.inr (.inr (.inl ⟨i, hi, rfl⟩)))
      simp only [Good] at h1 h2 ⊢
      rw [e, e', e'']
      simpa using h2 _ h1
    · obtain ⟨w1, w2, e, h1, w3, w4, e', h2, w5, w6, e2, h3, e3⟩ := hF
      have h1 := h1 (by simp)
      have h2 := h2 (.inr (.inl ⟨i + 1, by omega, rfl⟩))
      have h3 := h3 (.inr (.inr (.inl ⟨i, hi, rfl⟩)))
      simp only [Good] at h1 h2 h3 ⊢
      intro u hu
      rw [e, e', e2, e3, h1]
      have := h3 _ (InfixWord.bin i _ _ hi hu h2)
      simpa using this
    · obtain ⟨w1, w2, e, h1, e'⟩ := hF
      have h1 := h1 (by simp)
      simp only [Good] at h1 ⊢
      intro u hu
      rw [e, e', h1]
      simpa using hu
    · obtain ⟨w1, w2, e, h1, e'⟩ := hF
      have h1 := h1 (by simp)
      simp only [Good] at h1 ⊢
      rw [e, e', h1]
      exact .atom
    · obtain ⟨w1, w2, e, h1, w3, w4, e', h2, w5, w6, e2, h3, e3⟩ := hF
      have h1 := h1 (by simp)
      have h2 := h2 (.inr (.inl ⟨0, by omega, rfl⟩))
      have h3 := h3 (by simp)
      simp only [Good] at h1 h2 h3 ⊢
      rw [e, e', e2, e3, h1, h3]
      simpa using InfixWord.paren _ h2
theorem good_forest {xs : List OpSym} {w : List (Token L OpSym)} {ts : List (Node L OpSym)}
    (h : IsForest empty (opsPs n) xs w ts) : GoodAll n xs (w.map (·.tType)) := by
  cases h with
  | nil => rfl
  | cons x xs w w' t ts h1 h2 =>
    exact ⟨w.map (·.tType), w'.map (·.tType), by simp, good_tree h1, good_forest h2⟩
end

end Verif.Ops
