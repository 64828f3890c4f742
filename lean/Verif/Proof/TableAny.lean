import Verif.Spec.Lookahead
import Verif.Proof.Transitions

/-! # The table for arbitrary FIRST and FOLLOW sets -/

set_option linter.unusedSectionVars false

namespace Verif.Transitions

open Spec

variable {T : Type} [DecidableEq T] {eps init : T} {ps : List (Production T)} {g : Grammar T}

/-- Either a value or the panic of an `unwrap`. -/
def Plain {α : Type} (x : Out α) : Prop := (∃ a, x = .ok a) ∨ x = .panic .unwrapNone

theorem Plain.ok {α : Type} (a : α) : Plain (.ok a) := .inl ⟨a, rfl⟩

theorem Plain.unwrap {α : Type} (o : Option α) : Plain (Out.unwrap o) := by
  cases o with
  | none => exact .inr rfl
  | some a => exact .inl ⟨a, rfl⟩

theorem Plain.bind {α β : Type} {x : Out α} {f : α → Out β} (hx : Plain x) (hf : ∀ a, Plain (f a)) :
    Plain (x >>= f) := by
  rcases hx with ⟨a, rfl⟩ | rfl
  · exact hf a
  · exact .inr rfl

theorem plain_pfs (h : HashOrder T) (g : Grammar T) (p : Production T) (ff : FirstFollow T) :
    Plain (productionFirstSymbols h g p ff) := by
  unfold productionFirstSymbols onEpsilonFirst
  refine .bind (.unwrap _) fun x => .bind (.unwrap _) fun fx => ?_
  split_ifs
  · exact .bind (.unwrap _) fun _ => .ok _
  · exact .bind (.unwrap _) fun _ => .ok _
  · exact .ok _

theorem plain_pushProduction (p : Production T) (as : List T) (row : HMap T (List (Production T))) :
    Plain (pushProduction p as row) := by
  induction as generalizing row with
  | nil => exact .ok _
  | cons a as ih => exact .bind (.unwrap _) fun _ => ih _

theorem plain_processSymbolProductions (h : HashOrder T) (g : Grammar T) (ff : FirstFollow T) (x : T)
    (i : Nat) (qs : List (Production T)) (row : HMap T (List (Production T))) :
    Plain (processSymbolProductions h g ff x i qs row) := by
  induction qs generalizing i row with
  | nil => exact .ok _
  | cons q qs ih =>
    exact .bind (plain_pfs ..) fun _ => .bind (plain_pushProduction ..) fun _ => ih ..

theorem plain_processProductions (h : HashOrder T) (g : Grammar T) (ff : FirstFollow T)
    (xs : List T) (table : HMap T (HMap T (List (Production T)))) :
    Plain (processProductions h g ff xs table) := by
  induction xs generalizing table with
  | nil => exact .ok _
  | cons x xs ih =>
    exact .bind (.unwrap _) fun _ => .bind (.unwrap _) fun _ =>
      .bind (plain_processSymbolProductions ..) fun _ => ih ..

theorem plain_from (h : HashOrder T) (g : Grammar T) (ff : FirstFollow T) :
    Plain (Transitions.from h g ff) :=
  .bind (plain_processProductions ..) fun _ => .ok _

/-- What the computation of the lookahead set of a production gives. -/
theorem pfs_iff (G : GrammarOf eps init ps g) (h : HashOrder T) (ff : FirstFollow T)
    (p : Production T) (hp : p ∈ ps) :
    ((∃ x r fx, p.output = x :: r ∧ ff.getFirstSymbols x = some fx ∧
      (eps ∈ fx → (ff.getFollowSymbols (if x = eps then p.input else x)).isSome)) ↔
      ∃ l, productionFirstSymbols h g p ff = .ok l) ∧
    ∀ l, productionFirstSymbols h g p ff = .ok l → ∀ a, a ∈ l ↔ LooksAhead eps ff p a := by
  have he := G.eps_eq
  cases ho : p.output with
  | nil => exact absurd ho (G.wf p hp).2.1
  | cons x r =>
    unfold productionFirstSymbols onEpsilonFirst LooksAhead onNonEpsilonFirst
    simp only [ho, he, List.getElem?_cons_zero, Out.unwrap_some, Out.bind_ok, List.cons.injEq]
    cases hf : ff.getFirstSymbols x with
    | none =>
      constructor
      · simp only [Out.unwrap_none, Out.bind_panic, reduceCtorEq, exists_false, iff_false]
        rintro ⟨_, _, _, ⟨rfl, _⟩, h2, _⟩
        simp [hf] at h2
      · intro l hl; simp at hl
    | some fx =>
      simp only [Out.unwrap_some, Out.bind_ok]
      by_cases hin : eps ∈ fx
      · simp only [hin, if_true]
        have key : ∀ y, (if eps = x then (do
              let fo ← Out.unwrap (ff.getFollowSymbols p.input)
              Out.ok (FirstFollow.insertMany (FirstFollow.insertMany []
                ((h.ord (.first x) fx).filter (fun y => eps ≠ y))).1 (h.ord (.follow p.input) fo)).1)
            else (do
              let fo ← Out.unwrap (ff.getFollowSymbols x)
              Out.ok (FirstFollow.insertMany (FirstFollow.insertMany []
                ((h.ord (.first x) fx).filter (fun y => eps ≠ y))).1 (h.ord (.follow x) fo)).1)) = .ok y ↔
            ∃ fo, ff.getFollowSymbols (if x = eps then p.input else x) = some fo ∧
              (FirstFollow.insertMany (FirstFollow.insertMany []
                ((h.ord (.first x) fx).filter (fun y => eps ≠ y))).1
                (h.ord (.follow (if x = eps then p.input else x)) fo)).1 = y := by
          intro y
          by_cases hc : x = eps
          · rw [if_pos hc, if_pos hc.symm]
            simp [Out.bind_eq_ok, Out.unwrap_eq_ok]
          · rw [if_neg hc, if_neg (fun h => hc h.symm)]
            simp [Out.bind_eq_ok, Out.unwrap_eq_ok]
        constructor
        · constructor
          · rintro ⟨_, _, _, ⟨rfl, _⟩, h2, h3⟩
            rw [hf] at h2
            cases h2
            obtain ⟨fo, hfo⟩ := Option.isSome_iff_exists.1 (h3 hin)
            exact ⟨_, (key _).2 ⟨fo, hfo, rfl⟩⟩
          · rintro ⟨l, hl⟩
            obtain ⟨fo, hfo, _⟩ := (key l).1 hl
            exact ⟨x, r, fx, ⟨rfl, rfl⟩, hf, fun _ => by simp [hfo]⟩
        · intro l hl a
          obtain ⟨fo, hfo, rfl⟩ := (key l).1 hl
          simp only [FirstFollow.mem_insertMany, List.not_mem_nil, false_or, List.mem_filter,
            h.mem_ord, decide_eq_true_eq]
          constructor
          · rintro (⟨h1, h2⟩ | h1)
            · exact ⟨x, r, fx, ⟨rfl, rfl⟩, hf, .inl ⟨h1, Ne.symm h2⟩⟩
            · exact ⟨x, r, fx, ⟨rfl, rfl⟩, hf, .inr ⟨hin, fo, hfo, h1⟩⟩
          · rintro ⟨_, _, _, ⟨rfl, _⟩, h2, h3⟩
            rw [hf] at h2
            cases h2
            rcases h3 with ⟨h3, h4⟩ | ⟨_, fo', h3, h4⟩
            · exact .inl ⟨h3, Ne.symm h4⟩
            · rw [hfo] at h3
              cases h3
              exact .inr h4
      · simp only [hin, if_false]
        constructor
        · refine ⟨fun _ => ⟨_, rfl⟩, fun _ => ⟨x, r, fx, ⟨rfl, rfl⟩, hf, fun h => absurd h hin⟩⟩
        · intro l hl a
          simp only [Out.ok.injEq] at hl
          subst hl
          simp only [FirstFollow.mem_insertMany, List.not_mem_nil, false_or, h.mem_ord]
          constructor
          · intro h1
            exact ⟨x, r, fx, ⟨rfl, rfl⟩, hf, .inl ⟨h1, fun e => hin (e ▸ h1)⟩⟩
          · rintro ⟨_, _, _, ⟨rfl, _⟩, h2, h3⟩
            rw [hf] at h2
            cases h2
            rcases h3 with ⟨h3, _⟩ | ⟨h3, _⟩
            · exact h3
            · exact absurd h3 hin

theorem pushProduction_some {p : Production T} {as : List T} {row row' : HMap T (List (Production T))}
    (e : pushProduction p as row = .ok row') :
    (∀ a ∈ as, (row.get a).isSome) ∧ ∀ a, (row'.get a).isSome = (row.get a).isSome := by
  induction as generalizing row with
  | nil =>
    simp only [pushProduction, Out.ok.injEq] at e
    subst e
    simp
  | cons b as ih =>
    rw [pushProduction, Out.bind_eq_ok] at e
    obtain ⟨cell, h1, h2⟩ := e
    rw [Out.unwrap_eq_ok] at h1
    have := ih h2
    have hi : ∀ a, ((row.insert b (cell ++ [p])).get a).isSome = (row.get a).isSome := by
      intro a
      rw [HMap.get_insert]
      split_ifs with hb
      · subst hb; simp [h1]
      · rfl
    refine ⟨?_, fun a => by rw [this.2, hi]⟩
    intro a ha
    rcases List.mem_cons.1 ha with rfl | ha
    · simp [h1]
    · rw [← hi]; exact this.1 a ha

theorem processSymbolProductions_some {h : HashOrder T} {ff : FirstFollow T} {x : T} {i : Nat}
    {qs : List (Production T)} {row row' : HMap T (List (Production T))}
    (e : processSymbolProductions h g ff x i qs row = .ok row') :
    ∀ q ∈ qs, ∃ fs, productionFirstSymbols h g q ff = .ok fs ∧ ∀ a ∈ fs, (row.get a).isSome := by
  induction qs generalizing i row with
  | nil => simp
  | cons q qs ih =>
    rw [processSymbolProductions, Out.bind_eq_ok] at e
    obtain ⟨fs, h1, h2⟩ := e
    rw [Out.bind_eq_ok] at h2
    obtain ⟨row1, h2, h3⟩ := h2
    obtain ⟨k1, k2⟩ := pushProduction_some h2
    intro q' hq'
    rcases List.mem_cons.1 hq' with rfl | hq'
    · exact ⟨fs, h1, fun a ha => k1 a (by rw [h.mem_ord]; exact ha)⟩
    · obtain ⟨fs', h4, h5⟩ := ih h3 q' hq'
      exact ⟨fs', h4, fun a ha => by rw [← k2]; exact h5 a ha⟩

theorem processProductions_some (G : GrammarOf eps init ps g) {h : HashOrder T}
    {ff : FirstFollow T} {xs : List T} {table table' : HMap T (HMap T (List (Production T)))}
    (hxs : xs.Nodup) (e : processProductions h g ff xs table = .ok table') :
    ∀ p ∈ ps, p.input ∈ xs → ∃ row fs, table.get p.input = some row ∧
      productionFirstSymbols h g p ff = .ok fs ∧ ∀ a ∈ fs, (row.get a).isSome := by
  induction xs generalizing table with
  | nil => simp
  | cons x xs ih =>
    rw [processProductions, Out.bind_eq_ok] at e
    obtain ⟨qs, h1, h2⟩ := e
    rw [Out.bind_eq_ok] at h2
    obtain ⟨row, h2, h3⟩ := h2
    rw [Out.bind_eq_ok] at h3
    obtain ⟨row', h3, h4⟩ := h3
    rw [Out.unwrap_eq_ok] at h1 h2
    rw [List.nodup_cons] at hxs
    intro p hp hpx
    by_cases hx : p.input = x
    · subst hx
      rw [G.prods, if_pos ⟨p, hp, rfl⟩] at h1
      cases h1
      obtain ⟨fs, k1, k2⟩ := processSymbolProductions_some h3 p (by simp [hp])
      exact ⟨row, fs, h2, k1, k2⟩
    · obtain ⟨row1, fs, k1, k2, k3⟩ := ih hxs.2 h4 p hp (by
        rcases List.mem_cons.1 hpx with h' | h'
        · exact absurd h' hx
        · exact h')
      rw [HMap.get_insert, if_neg (fun e => hx e.symm)] at k1
      exact ⟨row1, fs, k1, k2, k3⟩

/-- The construction returns exactly if the sets supply what it needs. -/
theorem from_iff (G : GrammarOf eps init ps g) (h : HashOrder T) (ff : FirstFollow T) :
    (∃ t, Transitions.from h g ff = .ok t) ↔ Supplies eps ps ff := by
  have hnts : ∀ x, x ∈ g.getNonTerminalSymbols h ↔ IsNonTerminal ps x := by
    intro x; rw [Grammar.getNonTerminalSymbols, h.mem_ord, G.mem_nts]
  have hts : ∀ x, x ∈ g.getTerminalSymbols h ↔ IsTerminal ps x := by
    intro x; rw [Grammar.getTerminalSymbols, h.mem_ord, G.mem_ts]
  have hnd : (g.getNonTerminalSymbols h).Nodup := by
    rw [Grammar.getNonTerminalSymbols, h.nodup_ord]; exact G.nodup_nts
  constructor
  · rintro ⟨t, ht⟩ p hp
    unfold Transitions.from at ht
    rw [Out.bind_eq_ok] at ht
    obtain ⟨table, h1, _⟩ := ht
    have hin : p.input ∈ g.getNonTerminalSymbols h := (hnts _).2 ⟨p, hp, rfl⟩
    obtain ⟨row, fs, k1, k2, k3⟩ := processProductions_some G hnd h1 p hp hin
    obtain ⟨m1, m2⟩ := pfs_iff G h ff p hp
    refine ⟨m1.2 ⟨fs, k2⟩, fun a ha => ?_⟩
    have hrow : row = HMap.fromIter ((g.getTerminalSymbols h).map (fun a => (a, []))) := by
      unfold initialTable at k1
      rw [HMap.get_fromIter_map _ (fun _ => HMap.fromIter ((g.getTerminalSymbols h).map
          (fun a => (a, ([] : List (Production T)))))), if_pos hin] at k1
      exact (Option.some.inj k1).symm
    have := k3 a ((m2 fs k2 a).2 ha)
    rw [hrow, HMap.get_fromIter_map (g.getTerminalSymbols h) (fun _ => ([] : List (Production T)))]
      at this
    by_contra hc
    rw [if_neg (by rw [hts]; exact hc)] at this
    simp at this
  · intro hs
    refine from_ok G h ff fun p hp => ?_
    obtain ⟨m1, m2⟩ := pfs_iff G h ff p hp
    obtain ⟨fs, hfs⟩ := m1.1 (hs p hp).1
    exact ⟨fs, hfs, fun a ha => (hs p hp).2 a ((m2 fs hfs a).1 ha)⟩

/-- The cells. -/
theorem from_cells (G : GrammarOf eps init ps g) {h : HashOrder T} {ff : FirstFollow T}
    {t : Transitions T} (ht : Transitions.from h g ff = .ok t) (A a : T) (l : List (Production T))
    (hl : t.getProductions A a = some l) :
    (∀ q, q ∈ l ↔ q ∈ ps ∧ q.input = A ∧ LooksAhead eps ff q a) ∧
    l = (ps.filter (fun q => q.input = A)).filter (fun q => q ∈ l) := by
  have S := tableOf_of_from G ht
  have hc : IsNonTerminal ps A ∧ IsTerminal ps a := by
    by_contra hc
    rw [S.none A a hc] at hl
    simp at hl
  rw [S.some A a hc.1 hc.2] at hl
  have e : l = ps.filter (fun q => q.input = A ∧ a ∈ pfs h g ff q) := (Option.some.inj hl).symm
  have hp : ∀ q ∈ ps, (a ∈ pfs h g ff q ↔ LooksAhead eps ff q a) := by
    intro q hq
    obtain ⟨m1, m2⟩ := pfs_iff G h ff q hq
    obtain ⟨fs, hfs⟩ := m1.1 (((from_iff G h ff).1 ⟨t, ht⟩) q hq).1
    rw [pfs_of_ok hfs]
    exact m2 fs hfs a
  constructor
  · intro q
    rw [e]
    simp only [List.mem_filter, decide_eq_true_eq]
    constructor
    · rintro ⟨h1, h2, h3⟩
      exact ⟨h1, h2, (hp q h1).1 h3⟩
    · rintro ⟨h1, h2, h3⟩
      exact ⟨h1, h2, (hp q h1).2 h3⟩
  · rw [List.filter_filter]
    refine e.trans (List.filter_congr fun q hq => ?_)
    have hm : q ∈ l ↔ q.input = A ∧ a ∈ pfs h g ff q := by rw [e]; simp [hq]
    by_cases h1 : q.input = A <;> by_cases h2 : q ∈ l <;> simp_all

end Verif.Transitions
