import Verif.Spec.CFG
import Verif.Spec.EndMarker
import Verif.Proof.LL1

/-!
# The specification's derivations are those of Mathlib's context-free grammars
-/

set_option linter.unusedSectionVars false

namespace Verif.Spec

variable {T : Type} [DecidableEq T] {eps init : T} {ps : List (Production T)}

theorem toSymbol_of_nt {x : T} (h : IsNonTerminal ps x) : toSymbol ps x = .nonterminal x := by
  obtain ⟨p, hp, rfl⟩ := h
  simp only [toSymbol, List.mem_map]
  rw [if_pos ⟨p, hp, rfl⟩]

theorem toSymbol_of_not_nt {x : T} (h : ¬ IsNonTerminal ps x) : toSymbol ps x = .terminal x := by
  simp only [toSymbol, List.mem_map]
  rw [if_neg]
  rintro ⟨p, hp, rfl⟩
  exact h ⟨p, hp, rfl⟩

theorem toSymbol_injective : Function.Injective (toSymbol ps) := by
  intro x y h
  unfold toSymbol at h
  split at h <;> split at h <;> simp_all

/-- A sentential form, with its symbols classified. -/
def form (ps : List (Production T)) (u : List T) : List (Symbol T T) := u.map (toSymbol ps)

theorem mem_rules {r : ContextFreeRule T T} : r ∈ (toCFG eps init ps).rules ↔
    ∃ p ∈ ps, (⟨p.input, form ps (rhs eps p)⟩ : ContextFreeRule T T) = r := by
  change r ∈ (ps.map fun p => (⟨p.input, form ps (rhs eps p)⟩ : ContextFreeRule T T)).toFinset ↔ _
  simp

theorem produces_iff {u v : List (Symbol T T)} : (toCFG eps init ps).Produces u v ↔
    ∃ p ∈ ps, (⟨p.input, form ps (rhs eps p)⟩ : ContextFreeRule T T).Rewrites u v := by
  constructor
  · rintro ⟨r, hr, h⟩
    obtain ⟨p, hp, rfl⟩ := mem_rules.1 hr
    exact ⟨p, hp, h⟩
  · rintro ⟨p, hp, h⟩
    exact ⟨_, mem_rules.2 ⟨p, hp, rfl⟩, h⟩

theorem produces_of_step {u v : List T} (h : Step eps ps u v) :
    (toCFG eps init ps).Produces (form ps u) (form ps v) := by
  rw [produces_iff]
  cases h with
  | mk u v p hp =>
    refine ⟨p, hp, ?_⟩
    have := ContextFreeRule.rewrites_of_exists_parts
      (⟨p.input, form ps (rhs eps p)⟩ : ContextFreeRule T T) (form ps u) (form ps v)
    simpa [form, toSymbol_of_nt ⟨p, hp, rfl⟩] using this

theorem step_of_produces {u : List T} {y : List (Symbol T T)}
    (h : (toCFG eps init ps).Produces (form ps u) y) :
    ∃ v, y = form ps v ∧ Step eps ps u v := by
  rw [produces_iff] at h
  obtain ⟨p, hp, hw⟩ := h
  obtain ⟨a, b, h1, h2⟩ := ContextFreeRule.rewrites_iff.1 hw
  rw [form, List.append_assoc, List.map_eq_append_iff] at h1
  obtain ⟨u1, u2, rfl, rfl, h1⟩ := h1
  rw [List.singleton_append, List.map_eq_cons_iff] at h1
  obtain ⟨x, u3, rfl, hx, rfl⟩ := h1
  have : x = p.input := by
    apply toSymbol_injective (ps := ps)
    rw [hx, toSymbol_of_nt ⟨p, hp, rfl⟩]
  subst this
  exact ⟨u1 ++ rhs eps p ++ u3, by rw [h2]; simp [form], .mk _ _ p hp⟩

theorem cfgDerives_of_derives {u v : List T} (h : Derives eps ps u v) :
    (toCFG eps init ps).Derives (form ps u) (form ps v) := by
  induction h with
  | refl => exact Relation.ReflTransGen.refl
  | step s _ ih => exact Relation.ReflTransGen.head (produces_of_step s) ih

theorem derives_of_cfgDerives {u : List T} {y : List (Symbol T T)}
    (h : (toCFG eps init ps).Derives (form ps u) y) :
    ∃ v, y = form ps v ∧ Derives eps ps u v := by
  induction h with
  | refl => exact ⟨u, rfl, .refl _⟩
  | tail _ hs ih =>
    obtain ⟨v, rfl, hv⟩ := ih
    obtain ⟨v', rfl, hs'⟩ := step_of_produces hs
    exact ⟨v', rfl, hv.trans (.of_step hs')⟩

/-- The symbols of a derived form were there or come from an output; `eps` never appears. -/
theorem Derives.symbols (hw : WellFormed eps ps) {u v : List T} (h : Derives eps ps u v) :
    ∀ a ∈ v, a ∈ u ∨ (a ≠ eps ∧ ∃ p ∈ ps, a ∈ p.output) := by
  induction h with
  | refl => exact fun a ha => .inl ha
  | step s _ ih =>
    intro a ha
    rcases ih a ha with h1 | h1
    · cases s with
      | mk x y p hp =>
        simp only [List.mem_append] at h1
        rcases h1 with (h1 | h1) | h1
        · exact .inl (by simp [h1])
        · right
          unfold rhs at h1
          split at h1
          · simp at h1
          · rename_i hne
            refine ⟨?_, p, hp, h1⟩
            rintro rfl
            have hl := (hw p hp).2.2 h1
            apply hne
            rw [List.length_eq_one_iff] at hl
            obtain ⟨z, hz⟩ := hl
            rw [hz] at h1 ⊢
            simp at h1
            rw [h1]
        · exact .inl (by simp [h1])
    · exact .inr h1

theorem form_eq_terminals {w v : List T} (hv : w.map Symbol.terminal = form ps v) :
    w = v ∧ ∀ a ∈ v, ¬ IsNonTerminal ps a := by
  induction w generalizing v with
  | nil =>
    cases v with
    | nil => simp
    | cons b v => simp [form] at hv
  | cons a w ih =>
    cases v with
    | nil => simp [form] at hv
    | cons b v =>
      simp only [form, List.map_cons, List.cons.injEq] at hv
      obtain ⟨h1, h2⟩ := hv
      obtain ⟨rfl, h3⟩ := ih h2
      have hb : ¬ IsNonTerminal ps b := by
        intro hb
        rw [toSymbol_of_nt hb] at h1
        simp at h1
      rw [toSymbol_of_not_nt hb] at h1
      simp only [Symbol.terminal.injEq] at h1
      subst h1
      refine ⟨rfl, ?_⟩
      intro c hc
      rcases List.mem_cons.1 hc with rfl | hc
      · exact hb
      · exact h3 c hc

theorem sentence_iff_mem_language (hw : WellFormed eps ps) (hinit : IsNonTerminal ps init)
    (w : List T) : Sentence eps init ps w ↔ w ∈ (toCFG eps init ps).language := by
  have e : ([Symbol.nonterminal init] : List (Symbol T T)) = form ps [init] := by
    simp [form, toSymbol_of_nt hinit]
  constructor
  · rintro ⟨hd, ht⟩
    have h := cfgDerives_of_derives (init := init) hd
    have e' : form ps w = w.map Symbol.terminal :=
      List.map_congr_left fun a ha => toSymbol_of_not_nt (ht a ha).1.2
    rw [e', ← e] at h
    exact h
  · intro h
    have h' : (toCFG eps init ps).Derives (form ps [init]) (w.map Symbol.terminal) := by
      rw [← e]; exact h
    obtain ⟨v, hv, hd⟩ := derives_of_cfgDerives h'
    have hnt := form_eq_terminals hv
    obtain ⟨rfl, hnt⟩ := hnt
    refine ⟨hd, fun a ha => ?_⟩
    rcases hd.symbols hw a ha with h1 | ⟨h1, h2⟩
    · simp only [List.mem_singleton] at h1
      subst h1
      exact absurd hinit (hnt _ ha)
    · exact ⟨⟨h2, hnt a ha⟩, h1⟩

end Verif.Spec
