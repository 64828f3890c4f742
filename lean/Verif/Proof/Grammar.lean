import Verif.Spec.Derivation
import Verif.Proof.Basic

/-! # What `ContextFreeGrammar::new` builds -/

set_option linter.unusedSectionVars false

namespace Verif

open Spec

variable {T : Type} [DecidableEq T]

namespace Grammar

theorem get_processFold (ps : List (Production T)) (m : HMap T (List (Production T))) (x : T) :
    (ps.foldl processProductionsStep m).get x =
      if (∃ p ∈ ps, p.input = x) then some ((m.get x).getD [] ++ ps.filter (·.input = x))
      else m.get x := by
  induction ps generalizing m with
  | nil => simp
  | cons p ps ih =>
    rw [List.foldl_cons, ih]
    by_cases hx : p.input = x
    · subst hx
      have hg : (processProductionsStep m p).get p.input = some ((m.get p.input).getD [] ++ [p]) := by
        unfold processProductionsStep
        cases hm : m.get p.input <;> simp
      rw [hg]
      by_cases he : ∃ q ∈ ps, q.input = p.input
      · simp [he]
      · have hf : ps.filter (fun q => decide (q.input = p.input)) = [] := by
          rw [List.filter_eq_nil_iff]
          intro q hq
          simp only [decide_eq_true_eq]
          intro e
          exact he ⟨q, hq, e⟩
        rw [if_neg he, if_pos ⟨p, by simp, rfl⟩]
        simp [hf]
    · have hg : (processProductionsStep m p).get x = m.get x := by
        unfold processProductionsStep
        cases hm : m.get p.input <;> simp [HMap.get_insert, hx]
      rw [hg]
      have : (∃ q ∈ p :: ps, q.input = x) ↔ (∃ q ∈ ps, q.input = x) := by simp [hx]
      simp only [this, List.filter_cons, hx, decide_false]
      rfl

theorem get_processProductionsMap (ps : List (Production T)) (x : T) :
    (newProcessProductionsMap ps).get x =
      if (∃ p ∈ ps, p.input = x) then some (ps.filter (·.input = x)) else none := by
  simp [newProcessProductionsMap, get_processFold]

theorem keys_processFold_nodup (ps : List (Production T)) (m : HMap T (List (Production T)))
    (h : m.keys.Nodup) : (ps.foldl processProductionsStep m).keys.Nodup := by
  induction ps generalizing m with
  | nil => exact h
  | cons p ps ih =>
    rw [List.foldl_cons]
    apply ih
    unfold processProductionsStep
    split <;> exact HMap.keys_insert_nodup _ _ _ h

theorem keys_nodup (ps : List (Production T)) : (newProcessProductionsMap ps).keys.Nodup :=
  keys_processFold_nodup ps [] (by simp [HMap.keys])

theorem mem_keys (ps : List (Production T)) (x : T) :
    x ∈ (newProcessProductionsMap ps).keys ↔ IsNonTerminal ps x := by
  rw [HMap.mem_keys_iff, get_processProductionsMap]
  unfold IsNonTerminal
  split <;> simp_all

/-- A production passes the checks of `new_check_productions_map`. -/
def ProdOk (eps : T) (p : Production T) : Prop :=
  p.output ≠ [] ∧ (eps ∈ p.output → p.output.length = 1)

theorem checkProduction_ok (eps : T) (p : Production T) :
    checkProduction eps p = .ok () ↔ ProdOk eps p := by
  unfold checkProduction ProdOk
  rcases p with ⟨i, o⟩
  cases o with
  | nil => simp
  | cons a o =>
    cases o with
    | nil => simp
    | cons b o =>
      by_cases h : eps ∈ a :: b :: o <;> simp [h]

theorem checkProductions_ok (eps : T) (ps : List (Production T)) :
    checkProductions eps ps = .ok () ↔ ∀ p ∈ ps, ProdOk eps p := by
  induction ps with
  | nil => simp [checkProductions]
  | cons p ps ih =>
    unfold checkProductions
    rw [Out.bind_unit_eq_ok]
    simp [checkProduction_ok, ih]

theorem checkProductions_not_fuel (eps : T) (ps : List (Production T)) :
    checkProductions eps ps ≠ .fuel := by
  induction ps with
  | nil => simp [checkProductions]
  | cons p ps ih =>
    unfold checkProductions
    have : checkProduction eps p ≠ .fuel := by
      unfold checkProduction; split <;> (try split) <;> simp
    cases h : checkProduction eps p <;> simp_all

theorem checkKeys_ok (eps : T) (m : HMap T (List (Production T))) (ks : List T)
    (hk : ∀ k ∈ ks, k ∈ m.keys) :
    checkKeys eps m ks = .ok () ↔
      ∀ k ∈ ks, k ≠ eps ∧ ∀ l, m.get k = some l → ∀ p ∈ l, ProdOk eps p := by
  induction ks with
  | nil => simp [checkKeys]
  | cons k ks ih =>
    obtain ⟨l, hl⟩ := (HMap.mem_keys_iff m k).1 (hk k (by simp))
    have ih' := ih (fun k' h' => hk k' (by simp [h']))
    unfold checkKeys
    by_cases he : k = eps
    · simp [he]
    · simp only [if_neg he, hl, Out.unwrap_some, Out.bind_ok]
      rw [Out.bind_unit_eq_ok]
      simp [checkProductions_ok, ih', he, hl]

theorem checkKeys_not_fuel (eps : T) (m : HMap T (List (Production T))) (ks : List T) :
    checkKeys eps m ks ≠ .fuel := by
  induction ks with
  | nil => simp [checkKeys]
  | cons k ks ih =>
    unfold checkKeys
    split
    · simp
    · cases hg : m.get k with
      | none => simp
      | some l =>
        simp only [Out.unwrap_some, Out.bind_ok]
        have := checkProductions_not_fuel eps l
        cases hc : checkProductions eps l <;> simp_all

theorem check_ok (h : HashOrder T) (eps : T) (ps : List (Production T)) :
    newCheckProductionsMap h eps (newProcessProductionsMap ps) = .ok () ↔ WellFormed eps ps := by
  unfold newCheckProductionsMap
  rw [checkKeys_ok _ _ _ (fun k hk => (h.mem_ord _ _ _).1 hk)]
  constructor
  · intro H p hp
    have hk : p.input ∈ (newProcessProductionsMap ps).keys := (mem_keys ps _).2 ⟨p, hp, rfl⟩
    obtain ⟨h1, h2⟩ := H p.input ((h.mem_ord _ _ _).2 hk)
    have := h2 _ (by rw [get_processProductionsMap, if_pos ⟨p, hp, rfl⟩]) p (by simp [hp])
    exact ⟨h1, this.1, this.2⟩
  · intro H k hk
    rw [h.mem_ord, mem_keys] at hk
    obtain ⟨p, hp, rfl⟩ := hk
    refine ⟨(H p hp).1, ?_⟩
    intro l hl q hq
    rw [get_processProductionsMap, if_pos ⟨p, hp, rfl⟩] at hl
    simp only [Option.some.injEq] at hl
    subst hl
    simp only [List.mem_filter] at hq
    exact ⟨(H q hq.1).2.1, (H q hq.1).2.2⟩

/-! ## Sets -/

theorem mem_foldl_insert (l s : List T) (x : T) :
    x ∈ l.foldl (fun s x => (hsInsert s x).1) s ↔ x ∈ s ∨ x ∈ l := by
  induction l generalizing s with
  | nil => simp
  | cons y l ih => simp [ih, mem_hsInsert, or_assoc]

theorem nodup_foldl_insert (l s : List T) (h : s.Nodup) :
    (l.foldl (fun s x => (hsInsert s x).1) s).Nodup := by
  induction l generalizing s with
  | nil => simpa
  | cons y l ih => exact ih _ (nodup_hsInsert y h)

theorem mem_foldl_terminalStep (nts l s : List T) (x : T) :
    x ∈ l.foldl (terminalStep nts) s ↔ x ∈ s ∨ (x ∈ l ∧ x ∉ nts) := by
  induction l generalizing s with
  | nil => simp
  | cons y l ih =>
    rw [List.foldl_cons, ih]
    unfold terminalStep
    split
    · rename_i hy
      constructor
      · rintro (h | ⟨h1, h2⟩)
        · exact .inl h
        · exact .inr ⟨by simp [h1], h2⟩
      · rintro (h | ⟨h1, h2⟩)
        · exact .inl h
        · rcases List.mem_cons.1 h1 with rfl | h1
          · exact absurd hy h2
          · exact .inr ⟨h1, h2⟩
    · rename_i hy
      rw [mem_hsInsert]
      constructor
      · rintro ((h | rfl) | ⟨h1, h2⟩)
        · exact .inl h
        · exact .inr ⟨by simp, hy⟩
        · exact .inr ⟨by simp [h1], h2⟩
      · rintro (h | ⟨h1, h2⟩)
        · exact .inl (.inl h)
        · rcases List.mem_cons.1 h1 with rfl | h1
          · exact .inl (.inr rfl)
          · exact .inr ⟨h1, h2⟩

theorem nodup_foldl_terminalStep (nts l s : List T) (h : s.Nodup) :
    (l.foldl (terminalStep nts) s).Nodup := by
  induction l generalizing s with
  | nil => simpa
  | cons y l ih =>
    apply ih
    unfold terminalStep
    split
    · exact h
    · exact nodup_hsInsert y h

theorem mem_foldl_prods (nts : List T) (ps : List (Production T)) (s : List T) (x : T) :
    x ∈ ps.foldl (fun s p => p.output.foldl (terminalStep nts) s) s ↔
      x ∈ s ∨ ((∃ p ∈ ps, x ∈ p.output) ∧ x ∉ nts) := by
  induction ps generalizing s with
  | nil => simp
  | cons p ps ih =>
    rw [List.foldl_cons, ih, mem_foldl_terminalStep]
    simp only [List.mem_cons, exists_eq_or_imp]
    constructor
    · rintro ((h | ⟨h1, h2⟩) | ⟨h1, h2⟩)
      · exact .inl h
      · exact .inr ⟨.inl h1, h2⟩
      · exact .inr ⟨.inr h1, h2⟩
    · rintro (h | ⟨h1 | h1, h2⟩)
      · exact .inl (.inl h)
      · exact .inl (.inr ⟨h1, h2⟩)
      · exact .inr ⟨h1, h2⟩

theorem nodup_foldl_prods (nts : List T) (ps : List (Production T)) (s : List T) (h : s.Nodup) :
    (ps.foldl (fun s p => p.output.foldl (terminalStep nts) s) s).Nodup := by
  induction ps generalizing s with
  | nil => simpa
  | cons p ps ih => exact ih _ (nodup_foldl_terminalStep _ _ _ h)

theorem mem_buildFold (nts : List T) (m : HMap T (List (Production T))) (ks : List T) (s : List T)
    (x : T) :
    x ∈ ks.foldl (fun s k =>
        ((m.get k).getD []).foldl (fun s p => p.output.foldl (terminalStep nts) s) s) s ↔
      x ∈ s ∨ ((∃ k ∈ ks, ∃ p ∈ (m.get k).getD [], x ∈ p.output) ∧ x ∉ nts) := by
  induction ks generalizing s with
  | nil => simp
  | cons k ks ih =>
    rw [List.foldl_cons, ih, mem_foldl_prods]
    simp only [List.mem_cons, exists_eq_or_imp]
    constructor
    · rintro ((h | ⟨h1, h2⟩) | ⟨h1, h2⟩)
      · exact .inl h
      · exact .inr ⟨.inl h1, h2⟩
      · exact .inr ⟨.inr h1, h2⟩
    · rintro (h | ⟨h1 | h1, h2⟩)
      · exact .inl (.inl h)
      · exact .inl (.inr ⟨h1, h2⟩)
      · exact .inr ⟨h1, h2⟩

theorem nodup_buildFold (nts : List T) (m : HMap T (List (Production T))) (ks : List T) (s : List T)
    (h : s.Nodup) :
    (ks.foldl (fun s k =>
        ((m.get k).getD []).foldl (fun s p => p.output.foldl (terminalStep nts) s) s) s).Nodup := by
  induction ks generalizing s with
  | nil => simpa
  | cons k ks ih => exact ih _ (nodup_foldl_prods _ _ _ h)

end Grammar

/-- Everything the rest of the development needs to know about a grammar built by `new`. -/
structure GrammarOf (eps init : T) (ps : List (Production T)) (g : Grammar T) : Prop where
  wf : WellFormed eps ps
  eps_eq : g.epsilonSymbol = eps
  init_eq : g.initialSymbol = init
  mem_nts : ∀ x, x ∈ g.nonTerminalSymbolsSet ↔ IsNonTerminal ps x
  nodup_nts : g.nonTerminalSymbolsSet.Nodup
  mem_ts : ∀ x, x ∈ g.terminalSymbolsSet ↔ IsTerminal ps x
  nodup_ts : g.terminalSymbolsSet.Nodup
  prods : ∀ x, g.getProductions x =
    if (∃ p ∈ ps, p.input = x) then some (ps.filter (·.input = x)) else none

namespace Grammar

theorem new_eq_ok_iff (h : HashOrder T) (eps init : T) (ps : List (Production T)) :
    (∃ g, new h eps init ps = .ok g) ↔ WellFormed eps ps := by
  rw [← check_ok h]
  unfold new
  constructor
  · rintro ⟨g, hg⟩
    rw [Out.bind_eq_ok] at hg
    obtain ⟨_, hc, _⟩ := hg
    exact hc
  · intro hc
    simp only [hc, Out.bind_ok]
    exact ⟨_, rfl⟩

theorem new_not_fuel (h : HashOrder T) (eps init : T) (ps : List (Production T)) :
    new h eps init ps ≠ .fuel := by
  unfold new newCheckProductionsMap
  have := checkKeys_not_fuel eps (newProcessProductionsMap ps)
    (h.ord .productionsMap (newProcessProductionsMap ps).keys)
  cases hc : checkKeys eps (newProcessProductionsMap ps)
    (h.ord .productionsMap (newProcessProductionsMap ps).keys) <;> simp_all

theorem grammarOf_of_new {h : HashOrder T} {eps init : T} {ps : List (Production T)}
    {g : Grammar T} (hg : new h eps init ps = .ok g) : GrammarOf eps init ps g := by
  have hwf : WellFormed eps ps := (new_eq_ok_iff h eps init ps).1 ⟨g, hg⟩
  have hc := (check_ok h eps ps).2 hwf
  unfold new at hg
  simp only [hc, Out.bind_ok, Out.ok.injEq] at hg
  subst hg
  have hnt : ∀ x, x ∈ hashSetFromIter (h.ord .productionsMap (newProcessProductionsMap ps).keys) ↔
      IsNonTerminal ps x := by
    intro x
    unfold hashSetFromIter
    rw [mem_foldl_insert, h.mem_ord, mem_keys]
    simp
  refine ⟨hwf, rfl, rfl, hnt, nodup_foldl_insert _ _ (by simp), ?_, nodup_buildFold _ _ _ _ (by simp),
    fun x => get_processProductionsMap ps x⟩
  intro x
  simp only [buildTerminalSymbolsSet]
  rw [mem_buildFold, hnt]
  unfold IsTerminal
  simp only [List.not_mem_nil, false_or]
  refine and_congr_left fun _ => ?_
  constructor
  · rintro ⟨k, hk, p, hp, hx⟩
    rw [h.mem_ord, mem_keys] at hk
    rw [get_processProductionsMap, if_pos (show ∃ p ∈ ps, p.input = k from hk)] at hp
    simp only [Option.getD_some, List.mem_filter] at hp
    exact ⟨p, hp.1, hx⟩
  · rintro ⟨p, hp, hx⟩
    have hk : IsNonTerminal ps p.input := ⟨p, hp, rfl⟩
    refine ⟨p.input, by rw [h.mem_ord, mem_keys]; exact hk, p, ?_, hx⟩
    rw [get_processProductionsMap, if_pos (show ∃ q ∈ ps, q.input = p.input from hk)]
    simp [hp]

end Grammar

end Verif
