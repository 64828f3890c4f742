import Verif.Proof.ParserMono
import Verif.Proof.SimUse
import Verif.Spec.Iter
import Verif.Spec.Observe

/-!
# Property C62: the token iterator is read to its end first
-/

set_option linter.unusedSectionVars false

namespace Verif.Props

open Verif.Spec

variable {ι σ L T : Type} [DecidableEq T]

theorem forEachPush_yields {it : TokenIter ι L T} {i : ι} {ts : List (Token L T)} (h : Yields it i ts) :
    ∀ n v, ts.length < n → Parser.forEachPush it n i v = .ok (v ++ ts) := by
  induction h with
  | done i i' e =>
    intro n v hn
    match n, hn with
    | n + 1, _ => simp [Parser.forEachPush, e]
  | more i i' t ts e _ ih =>
    intro n v hn
    match n, hn with
    | n + 1, hn =>
      simp only [List.length_cons, Nat.add_lt_add_iff_right] at hn
      simp [Parser.forEachPush, e, ih n _ hn]

theorem forEachPush_ok {it : TokenIter ι L T} : ∀ (n : Nat) (i : ι) (v l : List (Token L T)),
    Parser.forEachPush it n i v = .ok l → ∃ ts, Yields it i ts ∧ l = v ++ ts := by
  intro n
  induction n with
  | zero => intro i v l h; simp [Parser.forEachPush] at h
  | succ n ih =>
    intro i v l h
    unfold Parser.forEachPush at h
    split at h
    · next t i' e =>
      obtain ⟨ts, h1, h2⟩ := ih _ _ _ h
      exact ⟨t :: ts, .more i i' t ts e h1, by simp [h2]⟩
    · next i' e =>
      cases h
      exact ⟨[], .done i i' e, by simp⟩
    · cases h
    · cases h

theorem forEachPush_panic {it : TokenIter ι L T} : ∀ (n : Nat) (i : ι) (v : List (Token L T)) (e : Panic),
    Parser.forEachPush it n i v = .panic e → IterPanics it i := by
  intro n
  induction n with
  | zero => intro i v l h; simp [Parser.forEachPush] at h
  | succ n ih =>
    intro i v l h
    unfold Parser.forEachPush at h
    split at h
    · next t i' e => exact .later i i' t e (ih _ _ _ h)
    · cases h
    · next e' e => exact .now i e' e
    · cases h

theorem forEachPush_panics {it : TokenIter ι L T} {i : ι} (h : IterPanics it i) :
    ∃ N e, ∀ n v, N ≤ n → Parser.forEachPush it n i v = .panic e := by
  induction h with
  | now i e h =>
    refine ⟨1, e, ?_⟩
    intro n v hn
    match n, hn with
    | n + 1, _ => simp [Parser.forEachPush, h]
  | later i i' t h _ ih =>
    obtain ⟨N, e, ih⟩ := ih
    refine ⟨N + 1, e, ?_⟩
    intro n v hn
    match n, hn with
    | n + 1, hn => simp [Parser.forEachPush, h, ih n _ (by omega)]

/-- **C62**, iterators that end: the parse depends on the iterator only by the tokens it yields. It
returns, panics or diverges as the parse of the list of these tokens does. -/
theorem C62_finite_iterator (p : Parser σ L T) (it : TokenIter ι L T) (i : ι) (ts : List (Token L T))
    (hy : Yields it i ts) (s : σ) :
    (∀ r s', IterParses p it i s r s' ↔ Parses p ts s r s') ∧
    (IterParsePanics p it i s ↔ ParsePanics p ts s) ∧
    (IterParseDiverges p it i s ↔ ParseDiverges p ts s) := by
  have key : ∀ n, ts.length < n → p.parseFromIter it n i s = p.parseFromTokens n ts s := by
    intro n hn
    simp [Parser.parseFromIter, Parser.iteratorToVec, forEachPush_yields hy n [] hn]
  refine ⟨?_, ?_, ?_⟩
  · intro r s'
    constructor
    · rintro ⟨N, hN⟩
      refine ⟨max N (ts.length + 1), fun n hn => ?_⟩
      have := hN n (by omega)
      simp only [key n (by omega)] at this
      exact this
    · rintro ⟨N, hN⟩
      refine ⟨max N (ts.length + 1), fun n hn => ?_⟩
      have := hN n (by omega)
      simp only [key n (by omega)]
      exact this
  · constructor
    · rintro ⟨N, e, hN⟩
      refine ⟨max N (ts.length + 1), e, fun n hn => ?_⟩
      have := hN n (by omega)
      simp only [key n (by omega)] at this
      exact this
    · rintro ⟨N, e, hN⟩
      refine ⟨max N (ts.length + 1), e, fun n hn => ?_⟩
      have := hN n (by omega)
      simp only [key n (by omega)]
      exact this
  · constructor
    · intro hd n
      have h1 := hd (max n (ts.length + 1))
      simp only [key _ (by omega : ts.length < max n (ts.length + 1))] at h1
      rcases Parser.parseFromTokens_le p ts (Nat.le_max_left n (ts.length + 1)) s with h | h
      · exact h
      · rw [h1] at h
        exact h
    · intro hd n
      simp only [Parser.parseFromIter]
      cases e : Parser.iteratorToVec it n i with
      | fuel => rfl
      | panic q =>
        obtain ⟨N, e', h'⟩ := forEachPush_panics (forEachPush_panic _ _ _ _ e)
        have h1 := forEachPush_yields hy (max N (ts.length + 1)) [] (by omega)
        rw [h' _ _ (by omega)] at h1
        cases h1
      | ok l =>
        obtain ⟨ts', h1, h2⟩ := forEachPush_ok _ _ _ _ e
        have h3 := forEachPush_yields hy (max ts.length ts'.length + 1) [] (by omega)
        have h4 := forEachPush_yields h1 (max ts.length ts'.length + 1) [] (by omega)
        rw [h3] at h4
        simp only [List.nil_append, Out.ok.injEq] at h4 h2
        subst h2 h4
        exact hd n

/-- **C62**, iterators that panic: the parse panics, whatever was yielded before. -/
theorem C62_panicking_iterator (p : Parser σ L T) (it : TokenIter ι L T) (i : ι)
    (hp : IterPanics it i) (s : σ) : IterParsePanics p it i s := by
  obtain ⟨N, e, h⟩ := forEachPush_panics hp
  exact ⟨N, e, fun n hn => by simp [Parser.parseFromIter, Parser.iteratorToVec, h n [] hn]⟩

/-- **C62**, iterators that never end: the parse diverges, even if it could be decided by the first
tokens. -/
theorem C62_infinite_iterator (p : Parser σ L T) (it : TokenIter ι L T) (i : ι)
    (hn : NeverEnds it i) (s : σ) : IterParseDiverges p it i s := by
  intro n
  simp only [Parser.parseFromIter]
  cases e : Parser.iteratorToVec it n i with
  | fuel => rfl
  | panic q => exact absurd (forEachPush_panic _ _ _ _ e) hn.1
  | ok l =>
    obtain ⟨ts, h1, _⟩ := forEachPush_ok _ _ _ _ e
    exact absurd h1 (hn.2 ts)

/-- Every iterator is of exactly one of the three kinds, and the tokens it yields are determined. -/
theorem C62_cases (it : TokenIter ι L T) (i : ι) :
    ((∃ ts, Yields it i ts) ∨ IterPanics it i ∨ NeverEnds it i) ∧
    (∀ ts ts', Yields it i ts → Yields it i ts' → ts = ts') ∧
    (∀ ts, Yields it i ts → ¬ IterPanics it i) := by
  refine ⟨?_, ?_, ?_⟩
  · by_cases h1 : IterPanics it i
    · exact .inr (.inl h1)
    · by_cases h2 : ∃ ts, Yields it i ts
      · exact .inl h2
      · exact .inr (.inr ⟨h1, fun ts h => h2 ⟨ts, h⟩⟩)
  · intro ts ts' h1 h2
    have h3 := forEachPush_yields h1 (max ts.length ts'.length + 1) [] (by omega)
    have h4 := forEachPush_yields h2 (max ts.length ts'.length + 1) [] (by omega)
    rw [h3] at h4
    simpa using h4
  · intro ts h1 h2
    obtain ⟨N, e, h'⟩ := forEachPush_panics h2
    have h1 := forEachPush_yields h1 (max N (ts.length + 1)) [] (by omega)
    rw [h' _ _ (by omega)] at h1
    cases h1

/-- `std::iter::repeat(token)`. -/
def repeatIter (t : Token Unit Nat) : TokenIter Unit Unit Nat := ⟨fun _ => .ok (some t, ())⟩

/-- `vec.into_iter()`. -/
def vecIter : TokenIter (List (Token Unit Nat)) Unit Nat where
  next := fun
    | [] => .ok (none, [])
    | t :: ts => .ok (some t, ts)

/-- An iterator that yields `n` tokens `10` and panics. -/
def failingIter : TokenIter Nat Unit Nat where
  next := fun
    | 0 => .panic .user
    | n + 1 => .ok (some ⟨none, 10⟩, n)

/-- The three cases occur for a parser that accepts `a` and ignores the rest (`S → a`): on the endless
iterator of `a`s it does not return, on a panicking one it panics, on `a a` it returns `Ok`. -/
example : ∃ g p tree, Grammar.new (HashOrder.id Nat) 0 1 [⟨1, [10]⟩] = .ok g ∧
    Built (σ := Unit) (L := Unit) (HashOrder.id Nat) g none p ∧
    IterParses p vecIter [⟨none, 10⟩, ⟨none, 10⟩] () (.ok tree) () ∧
    IterParseDiverges p (repeatIter ⟨none, 10⟩) () () ∧
    IterParsePanics p failingIter 2 () := by
  obtain ⟨g, p, tree, hg, hp, h1⟩ : ∃ g p tree,
      Grammar.new (HashOrder.id Nat) 0 1 [⟨1, [10]⟩] = .ok g ∧
      Built (σ := Unit) (L := Unit) (HashOrder.id Nat) g none p ∧
      Parses p [⟨none, 10⟩, ⟨none, 10⟩] () (.ok tree) () :=
    ⟨_, _, _, rfl, Parser.built_of_eval (n := 10) rfl, Parser.parse_returns (n := 10) rfl⟩
  refine ⟨g, p, tree, hg, hp, ?_, ?_, ?_⟩
  · exact ((C62_finite_iterator p vecIter _ _
      (.more _ _ _ _ rfl (.more _ _ _ _ rfl (.done _ _ rfl))) ()).1 _ _).2 h1
  · refine C62_infinite_iterator p _ () ⟨?_, ?_⟩ ()
    · generalize () = i
      intro h
      induction h with
      | now i e h => cases h
      | later i i' t h _ ih => exact ih
    · generalize () = i
      intro ts h
      induction h with
      | done i i' h => cases h
      | more i i' t ts h _ ih => exact ih
  · exact C62_panicking_iterator p failingIter 2 (.later 2 1 _ rfl (.later 1 0 _ rfl (.now 0 _ rfl))) ()

end Verif.Props
