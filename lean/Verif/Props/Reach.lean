import Verif.Proof.Reach
import Verif.Proof.Unused
import Verif.Props.Recovery
import Verif.Props.Table

/-!
# Property C54: symbols that cannot come up do not matter
-/

set_option linter.unusedSectionVars false

namespace Verif.Props

open Verif.Spec Verif.Examples

variable {σ L T : Type} [DecidableEq T]

theorem sameOutcomes_nil (p p' : Parser σ L T) (s : σ) : SameOutcomes p p' [] s := by
  have e : ∀ (p : Parser σ L T) n, p.parseFromTokens n [] s = .panic .emptyInput := fun _ _ => rfl
  have np : ∀ (p : Parser σ L T) r s', ¬ Parses p [] s r s' := by
    rintro p r s' ⟨n, hn⟩
    have := hn n (Nat.le_refl _)
    simp only [e] at this
    exact absurd this (by simp)
  have nd : ∀ (p : Parser σ L T), ¬ ParseDiverges p [] s := by
    intro p hd
    have := hd 0
    simp only [e] at this
    exact absurd this (by simp)
  exact ⟨fun _ _ => iff_of_false (np _ _ _) (np _ _ _),
    iff_of_true (C18_empty_input_panics p s) (C18_empty_input_panics p' s),
    iff_of_false (nd p) (nd p')⟩

/-- **C54**, in terms of the tables: `O` is a set of symbols that has the initial symbol and, with a
symbol, all symbols of the outputs in its cells. If two grammars have the same non-terminals in `O` and
their tables the same outputs in the cells of these, the parsers do the same on every input, with any
solver. -/
theorem C54_reachable_cells (h h' : HashOrder T) (eps init : T) (ps ps' : List (Production T))
    (g g' : Grammar T) (hg : Grammar.new h eps init ps = .ok g)
    (hg' : Grammar.new h' eps init ps' = .ok g') (solver : Option (Solver σ L T))
    (p p' : Parser σ L T) (hp : Built h g solver p) (hp' : Built h' g' solver p')
    (O : T → Prop) (hinit : O init)
    (hnt : ∀ x, O x → (IsNonTerminal ps x ↔ IsNonTerminal ps' x))
    (hcells : ∀ x a, O x → candidates p.transitions x a = candidates p'.transitions x a)
    (hclosed : ∀ x a, O x → ∀ o ∈ candidates p.transitions x a, ∀ y ∈ o, O y)
    (tokens : List (Token L T)) (s : σ) : SameOutcomes p p' tokens s := by
  cases tokens with
  | nil => exact sameOutcomes_nil p p' s
  | cons t ts =>
    obtain ⟨a1, a2, a3⟩ := C38_exact_result h eps init ps g hg solver p hp t ts s
    obtain ⟨b1, b2, b3⟩ := C38_exact_result h' eps init ps' g' hg' solver p' hp' t ts s
    have key : ∀ o, Recovers eps init ps p solver t ts s o ↔
        Recovers eps init ps' p' solver t ts s o := by
      intro o
      unfold Recovers
      constructor
      · intro hc
        have := Recovery.choice_reach hnt hcells hclosed hc hinit (hclosed init _ hinit)
        rwa [hcells init _ hinit] at this
      · intro hc
        have hcl' : ∀ x a, O x → ∀ o ∈ candidates p'.transitions x a, ∀ y ∈ o, O y := by
          intro x a hx
          rw [← hcells x a hx]
          exact hclosed x a hx
        have := Recovery.choice_reach (fun x hx => (hnt x hx).symm) (fun x a hx => (hcells x a hx).symm)
          hcl' hc hinit (hcl' init _ hinit)
        rwa [← hcells init _ hinit] at this
    refine ⟨fun r s' => ?_, ?_, ?_⟩
    · rw [a1, b1]; simp only [key]
    · rw [a2, b2, key]
    · rw [a3, b3]; simp only [key]

/-- The cells of symbols of `ps` are the same with further productions `us` of other symbols, whatever the
initial symbols, and however the productions of different symbols are interleaved. -/
theorem cells_of_unused {τ : Type} {h h' : HashOrder T} {eps init init' : T}
    {ps us all : List (Production T)} (hu : Unused init ps us)
    (hmem : ∀ r, r ∈ all ↔ r ∈ ps ++ us)
    (hall : ∀ A, (∀ u ∈ us, u.input ≠ A) →
      all.filter (fun p => p.input = A) = ps.filter (fun p => p.input = A))
    {g g' : Grammar T} (hg : Grammar.new h eps init ps = .ok g)
    (hg' : Grammar.new h' eps init' all = .ok g') {solver : Option (Solver σ L T)}
    {solver' : Option (Solver τ L T)} {p : Parser σ L T} {p' : Parser τ L T} (hp : Built h g solver p)
    (hp' : Built h' g' solver' p') :
    (∀ x a, (∀ u ∈ us, u.input ≠ x) → candidates p.transitions x a = candidates p'.transitions x a) ∧
    ∀ x a, (∀ u ∈ us, u.input ≠ x) → ∀ o ∈ candidates p.transitions x a, ∀ y ∈ o,
      ∀ u ∈ us, u.input ≠ y := by
  obtain ⟨ff, hff, e⟩ := (Parser.built_iff hg).1 hp
  obtain ⟨ff', hff', e'⟩ := (Parser.built_iff hg').1 hp'
  obtain ⟨S, hS, hL⟩ := table_spec hg hff (Parser.from_eq_ok e).2.2
  obtain ⟨S', hS', hL'⟩ := table_spec hg' hff' (Parser.from_eq_ok e').2.2
  have hnt' : ∀ x, (∀ u ∈ us, u.input ≠ x) → (IsNonTerminal ps x ↔ IsNonTerminal all x) := by
    intro x hx
    rw [hu.isNonTerminal hx]
    unfold IsNonTerminal
    simp only [hmem]
  have hfil : ∀ x a, (∀ u ∈ us, u.input ≠ x) →
      all.filter (fun r => r.input = x ∧ a ∈ S' r) =
      ps.filter (fun r => r.input = x ∧ a ∈ S r) := by
    intro x a hx
    have hf : ∀ l : List (Production T), l.filter (fun r => r.input = x ∧ a ∈ S' r) =
        (l.filter (fun r => r.input = x)).filter (fun r => a ∈ S' r) := by
      intro l
      rw [List.filter_filter]
      apply List.filter_congr
      intro r _
      rw [Bool.and_comm, ← Bool.decide_and]
    rw [hf, hall x hx, ← hf]
    apply List.filter_congr
    intro r hr
    rw [decide_eq_decide, hL r hr, hL' r ((hmem r).2 (by simp [hr])), hu.lead hr, lead_congr hmem]
  constructor
  · intro x a hx
    unfold candidates
    by_cases hn : IsNonTerminal ps x
    · have hn' := (hnt' x hx).1 hn
      have key : ∀ (r : List (Production T)), ps.filter (fun r => r.input = x ∧ a ∈ S r) = r →
          (¬ IsTerminal ps a → r = []) := by
        rintro _ rfl hc
        rw [List.filter_eq_nil_iff]
        intro r hr hd
        simp only [decide_eq_true_eq] at hd
        exact hc (lead_isTerminal ((hL r hr a).1 hd.2))
      by_cases ha : IsTerminal ps a
      · have ha' : IsTerminal all a := by
          obtain ⟨⟨r, hr, ho⟩, hna⟩ := ha
          exact ⟨⟨r, (hmem r).2 (by simp [hr]), ho⟩, by rwa [← hnt' a (hu.old hr ho)]⟩
        rw [hS.some x a hn ha, hS'.some x a hn' ha', hfil x a hx]
      · rw [hS.none x a fun h => ha h.2]
        by_cases ha' : IsTerminal all a
        · rw [hS'.some x a hn' ha', hfil x a hx, key _ rfl ha]
          rfl
        · rw [hS'.none x a fun h => ha' h.2]
    · rw [hS.none x a fun h => hn h.1, hS'.none x a fun h => hn ((hnt' x hx).2 h.1)]
  · intro x a hx o ho y hy
    unfold candidates at ho
    by_cases hc : IsNonTerminal ps x ∧ IsTerminal ps a
    · rw [hS.some x a hc.1 hc.2] at ho
      simp only [Option.getD_some, List.mem_map, List.mem_filter] at ho
      obtain ⟨r, ⟨hr, _⟩, rfl⟩ := ho
      exact hu.old hr hy
    · rw [hS.none x a hc] at ho
      simp at ho

/-- **C54.** Productions of symbols that do not occur in the grammar change nothing if their outputs have
non-terminals of the grammar only at the end, and then only productions of symbols that are in no output:
with them and without them, `parse_from_tokens` returns the same result in the same solver state, or
panics, or does not return, on every input and with any solver. -/
theorem C54_unused_productions (h h' : HashOrder T) (eps init : T) (ps us : List (Production T))
    (hu : Unused init ps us) (g g' : Grammar T) (hg : Grammar.new h eps init ps = .ok g)
    (hg' : Grammar.new h' eps init (ps ++ us) = .ok g') (solver : Option (Solver σ L T))
    (p p' : Parser σ L T) (hp : Built h g solver p) (hp' : Built h' g' solver p')
    (tokens : List (Token L T)) (s : σ) : SameOutcomes p p' tokens s := by
  obtain ⟨h1, h2⟩ := cells_of_unused hu (fun _ => Iff.rfl) (fun A hA => by
    have hn : us.filter (fun r => r.input = A) = [] := by
      rw [List.filter_eq_nil_iff]
      intro r hr
      simp [hA r hr]
    rw [List.filter_append, hn, List.append_nil]) hg hg' hp hp'
  exact C54_reachable_cells h h' eps init ps (ps ++ us) g g' hg hg' solver p p' hp hp'
    (fun x => ∀ u ∈ us, u.input ≠ x) (fun u h => (hu u h).1) (fun x hx => hu.isNonTerminal hx) h1 h2
    tokens s

/-- The hypotheses of C54 are met: `S → b X c`, `X → ε | a`, with `U → b V | c`, `V → c U`, `W → V S`
added. -/
example : ∃ g g' p p' tree tree', Unused 1 [⟨1, [11, 2, 12]⟩, ⟨2, [0]⟩, ⟨2, [10]⟩]
      [(⟨3, [11, 4]⟩ : Production Nat), ⟨3, [13]⟩, ⟨4, [13, 3]⟩, ⟨5, [4, 1]⟩] ∧
    Grammar.new (HashOrder.id Nat) 0 1 [⟨1, [11, 2, 12]⟩, ⟨2, [0]⟩, ⟨2, [10]⟩] = .ok g ∧
    Grammar.new (HashOrder.id Nat) 0 1 ([⟨1, [11, 2, 12]⟩, ⟨2, [0]⟩, ⟨2, [10]⟩] ++
      [⟨3, [11, 4]⟩, ⟨3, [13]⟩, ⟨4, [13, 3]⟩, ⟨5, [4, 1]⟩]) = .ok g' ∧
    Built (σ := Unit) (L := Unit) (HashOrder.id Nat) g none p ∧
    Built (σ := Unit) (L := Unit) (HashOrder.id Nat) g' none p' ∧
    Parses p [⟨none, 11⟩, ⟨none, 10⟩, ⟨none, 12⟩] () (.ok tree) () ∧
    Parses p' [⟨none, 11⟩, ⟨none, 10⟩, ⟨none, 12⟩] () (.ok tree') () :=
  ⟨_, _, _, _, _, _, by
    simp [Unused, IsNonTerminal, List.cons_eq_append_iff]
    grind, rfl, rfl, Parser.built_of_eval (n := 10) rfl,
    Parser.built_of_eval (n := 10) rfl, Parser.parse_returns (n := 20) rfl,
    Parser.parse_returns (n := 20) rfl⟩

/-- Unreachable productions that do have a non-terminal of the grammar in their outputs can change the
result: with `S → b X`, `X → ε` the input `b a` is an error, and adding `U → X a`, of a symbol `U` that
does not occur elsewhere, makes it `Ok`. -/
theorem C54_unreachable_production_matters : ∃ g g' p p' f tree,
    Grammar.new (HashOrder.id Nat) 0 1 [⟨1, [11, 2]⟩, ⟨2, [0]⟩] = .ok g ∧
    Grammar.new (HashOrder.id Nat) 0 1 [⟨1, [11, 2]⟩, ⟨2, [0]⟩, ⟨3, [2, 10]⟩] = .ok g' ∧
    Built (σ := Unit) (L := Unit) (HashOrder.id Nat) g none p ∧
    Built (σ := Unit) (L := Unit) (HashOrder.id Nat) g' none p' ∧
    Parses p [⟨none, 11⟩, ⟨none, 10⟩] () (.err f) () ∧
    Parses p' [⟨none, 11⟩, ⟨none, 10⟩] () (.ok tree) () :=
  ⟨_, _, _, _, _, _, rfl, rfl, Parser.built_of_eval (n := 10) rfl,
    Parser.built_of_eval (n := 10) rfl, Parser.parse_returns (n := 20) rfl,
    Parser.parse_returns (n := 20) rfl⟩

end Verif.Props
