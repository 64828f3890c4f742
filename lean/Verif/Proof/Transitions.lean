import Verif.Proof.Follow
import Verif.Model.Transitions

/-! # The transition table -/

set_option linter.unusedSectionVars false

namespace Verif

open Spec

variable {T : Type} [DecidableEq T]

namespace Transitions

variable {eps init : T} {ps : List (Production T)} {g : Grammar T}

/-- The lookahead set of a production, empty when its computation panics. -/
def pfs (h : HashOrder T) (g : Grammar T) (ff : FirstFollow T) (p : Production T) : List T :=
  match productionFirstSymbols h g p ff with
  | .ok l => l
  | _ => []

theorem pfs_of_ok {h : HashOrder T} {ff : FirstFollow T} {p : Production T} {l : List T}
    (e : productionFirstSymbols h g p ff = .ok l) : pfs h g ff p = l := by
  simp [pfs, e]

theorem nodup_pfs (h : HashOrder T) (g : Grammar T) (ff : FirstFollow T) (p : Production T) :
    (pfs h g ff p).Nodup := by
  unfold pfs productionFirstSymbols
  cases h1 : p.output[0]? with
  | none => simp
  | some x =>
    cases h2 : ff.getFirstSymbols x with
    | none => simp [h2]
    | some fx =>
      simp only [Out.unwrap_some, Out.bind_ok, h2]
      split_ifs
      · unfold onEpsilonFirst
        simp only
        split_ifs
        · cases ff.getFollowSymbols p.input with
          | none => simp
          | some fo =>
            simp only [Out.unwrap_some, Out.bind_ok]
            exact FirstFollow.nodup_insertMany _ (FirstFollow.nodup_insertMany _ (by simp))
        · cases ff.getFollowSymbols x with
          | none => simp
          | some fo =>
            simp only [Out.unwrap_some, Out.bind_ok]
            exact FirstFollow.nodup_insertMany _ (FirstFollow.nodup_insertMany _ (by simp))
      · exact FirstFollow.nodup_insertMany _ (by simp)

theorem pushProduction_get {p : Production T} {as : List T} (hnd : as.Nodup)
    {row row' : HMap T (List (Production T))} (e : pushProduction p as row = .ok row') (a : T) :
    row'.get a = (row.get a).map (fun c => if a ∈ as then c ++ [p] else c) := by
  induction as generalizing row with
  | nil =>
    simp only [pushProduction, Out.ok.injEq] at e
    subst e
    simp
  | cons b as ih =>
    rw [pushProduction, Out.bind_eq_ok] at e
    obtain ⟨cell, h1, h2⟩ := e
    rw [Out.unwrap_eq_ok] at h1
    rw [List.nodup_cons] at hnd
    rw [ih hnd.2 h2, HMap.get_insert]
    by_cases hb : b = a
    · subst hb
      simp [h1, hnd.1]
    · have hb' : a ≠ b := fun e => hb e.symm
      simp [hb, hb']

theorem pushProduction_ok {p : Production T} {as : List T} {row : HMap T (List (Production T))}
    (hr : ∀ a ∈ as, (row.get a).isSome) : ∃ row', pushProduction p as row = .ok row' := by
  induction as generalizing row with
  | nil => exact ⟨row, rfl⟩
  | cons b as ih =>
    have hb := hr b (by simp)
    cases hg : row.get b with
    | none => simp [hg] at hb
    | some c =>
      simp only [pushProduction, hg, Out.unwrap_some, Out.bind_ok]
      apply ih
      intro a ha
      rw [HMap.get_insert]
      split
      · simp
      · exact hr a (by simp [ha])

theorem processSymbolProductions_get {h : HashOrder T} {ff : FirstFollow T} {x : T} {i : Nat}
    {qs : List (Production T)} {row row' : HMap T (List (Production T))}
    (e : processSymbolProductions h g ff x i qs row = .ok row') (a : T) :
    row'.get a = (row.get a).map (· ++ qs.filter (fun q => a ∈ pfs h g ff q)) := by
  induction qs generalizing i row with
  | nil =>
    simp only [processSymbolProductions, Out.ok.injEq] at e
    subst e
    simp
  | cons q qs ih =>
    rw [processSymbolProductions, Out.bind_eq_ok] at e
    obtain ⟨fs, h1, h2⟩ := e
    rw [Out.bind_eq_ok] at h2
    obtain ⟨row1, h2, h3⟩ := h2
    have hfs := pfs_of_ok h1
    have hnd : (h.ord (.productionFirst x i) fs).Nodup := by
      rw [h.nodup_ord, ← hfs]; exact nodup_pfs h g ff q
    rw [ih h3, pushProduction_get hnd h2]
    cases row.get a with
    | none => rfl
    | some c =>
      simp only [Option.map_some, h.mem_ord, List.filter_cons, hfs]
      by_cases ha : a ∈ fs <;> simp [ha]

theorem processSymbolProductions_ok {h : HashOrder T} {ff : FirstFollow T} {x : T} {i : Nat}
    {qs : List (Production T)} {row : HMap T (List (Production T))}
    (hq : ∀ q ∈ qs, ∃ fs, productionFirstSymbols h g q ff = .ok fs ∧ ∀ a ∈ fs, (row.get a).isSome) :
    ∃ row', processSymbolProductions h g ff x i qs row = .ok row' := by
  induction qs generalizing i row with
  | nil => exact ⟨row, rfl⟩
  | cons q qs ih =>
    obtain ⟨fs, h1, h2⟩ := hq q (by simp)
    obtain ⟨row1, h3⟩ := pushProduction_ok (p := q) (as := h.ord (.productionFirst x i) fs) (row := row)
      (by intro a ha; rw [h.mem_ord] at ha; exact h2 a ha)
    simp only [processSymbolProductions, h1, Out.bind_ok, h3]
    apply ih
    intro q' hq'
    obtain ⟨fs', k1, k2⟩ := hq q' (by simp [hq'])
    refine ⟨fs', k1, fun a ha => ?_⟩
    have hnd : (h.ord (.productionFirst x i) fs).Nodup := by
      rw [h.nodup_ord, ← pfs_of_ok h1]; exact nodup_pfs h g ff q
    rw [pushProduction_get hnd h3]
    simpa using k2 a ha

/-- A cell of the table. -/
def cell (table : HMap T (HMap T (List (Production T)))) (A a : T) : Option (List (Production T)) :=
  (table.get A).bind (fun row => row.get a)

theorem getProductions_eq_cell (t : Transitions T) (A a : T) :
    t.getProductions A a = cell t.table A a := by
  unfold getProductions cell
  cases t.table.get A <;> rfl

theorem processProductions_cell (G : GrammarOf eps init ps g) {h : HashOrder T}
    {ff : FirstFollow T} {xs : List T} (hnd : xs.Nodup) (hxs : ∀ x ∈ xs, IsNonTerminal ps x)
    {table table' : HMap T (HMap T (List (Production T)))}
    (e : processProductions h g ff xs table = .ok table') (A a : T) :
    cell table' A a = (cell table A a).map (fun c =>
      if A ∈ xs then c ++ ps.filter (fun q => q.input = A ∧ a ∈ pfs h g ff q) else c) := by
  induction xs generalizing table with
  | nil =>
    simp only [processProductions, Out.ok.injEq] at e
    subst e
    simp
  | cons x xs ih =>
    have hx : ∃ p ∈ ps, p.input = x := hxs x (by simp)
    rw [processProductions, G.prods, if_pos hx, Out.unwrap_some, Out.bind_ok, Out.bind_eq_ok] at e
    obtain ⟨row, h1, h2⟩ := e
    rw [Out.unwrap_eq_ok] at h1
    rw [Out.bind_eq_ok] at h2
    obtain ⟨row', h2, h3⟩ := h2
    rw [List.nodup_cons] at hnd
    rw [ih hnd.2 (fun y hy => hxs y (by simp [hy])) h3]
    unfold cell
    rw [HMap.get_insert]
    by_cases hb : x = A
    · subst hb
      simp only [if_true, Option.bind_some, processSymbolProductions_get h2, h1, hnd.1, if_false,
        List.mem_cons, true_or, Option.map_map]
      congr 1
      funext c
      simp only [Function.comp_apply, List.filter_filter]
      congr 1
      apply List.filter_congr
      intro q _
      simp [Bool.and_comm]
    · have hb' : A ≠ x := fun e => hb e.symm
      simp [hb, hb']

theorem processProductions_ok (G : GrammarOf eps init ps g) {h : HashOrder T}
    {ff : FirstFollow T} {xs : List T} (hxs : ∀ x ∈ xs, IsNonTerminal ps x)
    {table : HMap T (HMap T (List (Production T)))}
    (hp : ∀ p ∈ ps, ∃ fs, productionFirstSymbols h g p ff = .ok fs ∧ ∀ a ∈ fs, IsTerminal ps a)
    (ht : ∀ x ∈ xs, ∃ row, table.get x = some row ∧ ∀ a, IsTerminal ps a → (row.get a).isSome)
    (hnd : xs.Nodup) :
    ∃ table', processProductions h g ff xs table = .ok table' := by
  induction xs generalizing table with
  | nil => exact ⟨table, rfl⟩
  | cons x xs ih =>
    have hx : ∃ p ∈ ps, p.input = x := hxs x (by simp)
    obtain ⟨row, h1, h2⟩ := ht x (by simp)
    obtain ⟨row', h3⟩ := processSymbolProductions_ok (g := g) (h := h) (ff := ff) (x := x) (i := 0)
      (qs := ps.filter (·.input = x)) (row := row) (by
        intro q hq
        obtain ⟨fs, k1, k2⟩ := hp q (List.mem_filter.1 hq).1
        exact ⟨fs, k1, fun a ha => h2 a (k2 a ha)⟩)
    rw [processProductions, G.prods, if_pos hx, Out.unwrap_some, Out.bind_ok, h1, Out.unwrap_some,
      Out.bind_ok, h3, Out.bind_ok]
    rw [List.nodup_cons] at hnd
    refine ih (fun y hy => hxs y (by simp [hy])) ?_ hnd.2
    intro y hy
    have : x ≠ y := by rintro rfl; exact hnd.1 hy
    rw [HMap.get_insert, if_neg this]
    exact ht y (by simp [hy])

theorem initialTable_cell (nts ts : List T) (A a : T) :
    cell (initialTable nts ts) A a = if A ∈ nts ∧ a ∈ ts then some [] else none := by
  unfold cell initialTable
  rw [HMap.get_fromIter_map nts (fun _ => HMap.fromIter (ts.map (fun a => (a, []))))]
  by_cases h1 : A ∈ nts
  · simp only [h1, if_true, Option.bind_some, true_and]
    exact HMap.get_fromIter_map ts (fun _ => []) a
  · simp [h1]

/-- The cells of the table in terms of a lookahead set per production. -/
structure TableOf (ps : List (Production T)) (S : Production T → List T) (t : Transitions T) : Prop
    where
  some : ∀ A a, IsNonTerminal ps A → IsTerminal ps a →
    t.getProductions A a = .some (ps.filter (fun q => q.input = A ∧ a ∈ S q))
  none : ∀ A a, ¬ (IsNonTerminal ps A ∧ IsTerminal ps a) → t.getProductions A a = .none

theorem tableOf_of_from (G : GrammarOf eps init ps g) {h : HashOrder T} {ff : FirstFollow T}
    {t : Transitions T} (e : Transitions.from h g ff = .ok t) : TableOf ps (pfs h g ff) t := by
  unfold Transitions.from at e
  rw [Out.bind_eq_ok] at e
  obtain ⟨table, h1, h2⟩ := e
  simp only [Out.ok.injEq] at h2
  subst h2
  have hnts : ∀ x, x ∈ g.getNonTerminalSymbols h ↔ IsNonTerminal ps x := by
    intro x; rw [Grammar.getNonTerminalSymbols, h.mem_ord, G.mem_nts]
  have hts : ∀ x, x ∈ g.getTerminalSymbols h ↔ IsTerminal ps x := by
    intro x; rw [Grammar.getTerminalSymbols, h.mem_ord, G.mem_ts]
  have hnd : (g.getNonTerminalSymbols h).Nodup := by
    rw [Grammar.getNonTerminalSymbols, h.nodup_ord]; exact G.nodup_nts
  have hc := processProductions_cell G hnd (fun x hx => (hnts x).1 hx) h1
  constructor
  · intro A a hA ha
    rw [getProductions_eq_cell]
    simp only
    rw [hc, initialTable_cell, if_pos ⟨(hnts A).2 hA, (hts a).2 ha⟩]
    simp [(hnts A).2 hA]
  · intro A a hn
    rw [getProductions_eq_cell]
    simp only
    rw [hc, initialTable_cell, if_neg (by rw [hnts, hts]; exact hn)]
    rfl

theorem from_ok (G : GrammarOf eps init ps g) (h : HashOrder T) (ff : FirstFollow T)
    (hp : ∀ p ∈ ps, ∃ fs, productionFirstSymbols h g p ff = .ok fs ∧ ∀ a ∈ fs, IsTerminal ps a) :
    ∃ t, Transitions.from h g ff = .ok t := by
  have hnts : ∀ x, x ∈ g.getNonTerminalSymbols h ↔ IsNonTerminal ps x := by
    intro x; rw [Grammar.getNonTerminalSymbols, h.mem_ord, G.mem_nts]
  have hts : ∀ x, x ∈ g.getTerminalSymbols h ↔ IsTerminal ps x := by
    intro x; rw [Grammar.getTerminalSymbols, h.mem_ord, G.mem_ts]
  have hnd : (g.getNonTerminalSymbols h).Nodup := by
    rw [Grammar.getNonTerminalSymbols, h.nodup_ord]; exact G.nodup_nts
  obtain ⟨table, ht⟩ := processProductions_ok G (h := h) (ff := ff)
    (xs := g.getNonTerminalSymbols h) (fun x hx => (hnts x).1 hx)
    (table := initialTable (g.getNonTerminalSymbols h) (g.getTerminalSymbols h)) hp
    (by
      intro x hx
      refine ⟨HMap.fromIter ((g.getTerminalSymbols h).map (fun a => (a, []))), ?_, ?_⟩
      · unfold initialTable
        rw [HMap.get_fromIter_map _ (fun _ => HMap.fromIter ((g.getTerminalSymbols h).map
          (fun a => (a, ([] : List (Production T)))))), if_pos hx]
      · intro a ha
        rw [HMap.get_fromIter_map (g.getTerminalSymbols h) (fun _ => ([] : List (Production T))),
          if_pos ((hts a).2 ha)]
        rfl) hnd
  exact ⟨⟨table⟩, by simp [Transitions.from, ht]⟩

/-! ## With the computed FIRST and FOLLOW -/

/-- The lookahead condition the table actually implements: it looks only at the first symbol of the
right-hand side and, when that is nullable, uses the FOLLOW set of that symbol. -/
def Lead (eps : T) (ps : List (Production T)) (p : Production T) (a : T) : Prop :=
  (rhs eps p = [] ∧ FollowRule eps ps p.input a) ∨
  ∃ x t, rhs eps p = x :: t ∧
    (CanStart eps ps x a ∨ (Nullable eps ps x ∧ FollowRule eps ps x a))

theorem rhs_eq_nil_iff (G : GrammarOf eps init ps g) {p : Production T} (hp : p ∈ ps) :
    rhs eps p = [] ↔ p.output = [eps] := by
  unfold rhs
  constructor
  · intro h
    by_contra hc
    rw [if_neg hc] at h
    exact (G.wf p hp).2.1 h
  · intro h; rw [if_pos h]

theorem pfs_spec (G : GrammarOf eps init ps g) (h : HashOrder T) {ff : FirstFollow T}
    (F : FirstFollow.Spec eps ps ff) {p : Production T} (hp : p ∈ ps) :
    ∃ fs, productionFirstSymbols h g p ff = .ok fs ∧ ∀ a, a ∈ fs ↔ Lead eps ps p a := by
  have hne : p.output ≠ [] := (G.wf p hp).2.1
  obtain ⟨x, t, hxt⟩ := List.exists_cons_of_ne_nil hne
  have hx0 : p.output[0]? = some x := by simp [hxt]
  have hk : IsNonTerminal ps x ∨ IsTerminal ps x := FirstFollow.symbol_kind hp (by simp [hxt])
  have hf : ff.getFirstSymbols x = some (FirstFollow.look ff.firstSymbols x) :=
    F.first.inv.get_some hk
  have hfo : ∀ y, IsNonTerminal ps y →
      ff.getFollowSymbols y = some (FirstFollow.look ff.followSymbols y) := by
    intro y hy
    have := (F.follow.dom y).2 hy
    unfold FirstFollow.getFollowSymbols FirstFollow.look
    cases hm : ff.followSymbols.get y with
    | none => simp [hm] at this
    | some s => simp
  have hfr : ∀ {y a}, FollowRule eps ps y a → a ≠ eps := fun H => H.canFollow.2.1
  simp only [productionFirstSymbols, hx0, Out.unwrap_some, Out.bind_ok, hf]
  by_cases he : x = eps
  · subst he
    have hnt : ¬ IsNonTerminal ps x := FirstFollow.eps_not_nt G
    have hterm := hk.resolve_left hnt
    have hl : FirstFollow.look ff.firstSymbols x = [x] :=
      FirstFollow.look_of_get (F.first.inv.term x hterm)
    have ht : t = [] := by
      have := (G.wf p hp).2.2 (by simp [hxt])
      rw [hxt] at this
      simpa using this
    subst ht
    have hrhs : rhs x p = [] := (rhs_eq_nil_iff G hp).2 hxt
    rw [hl, G.eps_eq, if_pos (by simp)]
    simp only [onEpsilonFirst, G.eps_eq, if_true, hfo p.input ⟨p, hp, rfl⟩, Out.unwrap_some,
      Out.bind_ok]
    refine ⟨_, rfl, ?_⟩
    intro a
    rw [FirstFollow.mem_insertMany, FirstFollow.mem_insertMany, h.mem_ord, F.follow.mem,
      List.mem_filter, h.mem_ord]
    unfold Lead
    rw [hrhs]
    simp only [List.not_mem_nil, List.mem_singleton, ne_eq, decide_eq_true_eq, false_or, true_and,
      reduceCtorEq, false_and, exists_false, or_false]
    constructor
    · rintro (⟨rfl, h2⟩ | h2)
      · exact absurd rfl h2
      · exact h2
    · exact .inr
  · have hrhs : rhs eps p = x :: t := by
      unfold rhs
      rw [if_neg, hxt]
      rw [hxt]
      intro e
      simp at e
      exact he e.1
    have hL : ∀ a, Lead eps ps p a ↔
        (CanStart eps ps x a ∨ (Nullable eps ps x ∧ FollowRule eps ps x a)) := by
      intro a
      unfold Lead
      rw [hrhs]
      constructor
      · rintro (⟨h', _⟩ | ⟨x', t', e, h'⟩)
        · simp at h'
        · simp only [List.cons.injEq] at e
          rw [e.1]; exact h'
      · intro h'
        exact .inr ⟨x, t, rfl, h'⟩
    by_cases hn : Nullable eps ps x
    · have hx : IsNonTerminal ps x := by
        by_contra hc
        exact FirstFollow.terminal_not_nullable hc hn
      have hin : g.epsilonSymbol ∈ FirstFollow.look ff.firstSymbols x := by
        rw [G.eps_eq]; exact (F.first.eps_mem hk he).2 hn
      rw [if_pos hin]
      have : ¬ g.epsilonSymbol = x := by rw [G.eps_eq]; exact fun e => he e.symm
      simp only [onEpsilonFirst, if_neg this, hfo x hx, Out.unwrap_some, Out.bind_ok]
      refine ⟨_, rfl, ?_⟩
      intro a
      rw [FirstFollow.mem_insertMany, FirstFollow.mem_insertMany, h.mem_ord, F.follow.mem,
        List.mem_filter, h.mem_ord, hL]
      simp only [List.not_mem_nil, false_or, decide_eq_true_eq, ne_eq, G.eps_eq]
      constructor
      · rintro (⟨h1, h2⟩ | h1)
        · exact .inl ((F.first.mem_iff hk (fun e => h2 e.symm)).1 h1)
        · exact .inr ⟨hn, h1⟩
      · rintro (h1 | ⟨_, h1⟩)
        · exact .inl ⟨(F.first.mem_iff hk h1.2.1).2 h1, fun e => h1.2.1 e.symm⟩
        · exact .inr h1
    · have hin : ¬ g.epsilonSymbol ∈ FirstFollow.look ff.firstSymbols x := by
        rw [G.eps_eq]; exact fun h' => hn ((F.first.eps_mem hk he).1 h')
      rw [if_neg hin]
      refine ⟨_, rfl, ?_⟩
      intro a
      unfold onNonEpsilonFirst
      rw [FirstFollow.mem_insertMany, h.mem_ord, hL]
      simp only [List.not_mem_nil, false_or]
      constructor
      · intro h1
        have : a ≠ eps := by rintro rfl; rw [G.eps_eq] at hin; exact hin h1
        exact .inl ((F.first.mem_iff hk this).1 h1)
      · rintro (h1 | ⟨h1, _⟩)
        · exact (F.first.mem_iff hk h1.2.1).2 h1
        · exact absurd h1 hn

theorem Lead.isTerminal {p : Production T} {a : T} (h : Lead eps ps p a) :
    IsTerminal ps a ∧ a ≠ eps := by
  rcases h with ⟨_, h⟩ | ⟨x, t, _, h | ⟨_, h⟩⟩
  · exact ⟨h.canFollow.1, h.canFollow.2.1⟩
  · exact ⟨h.1, h.2.1⟩
  · exact ⟨h.canFollow.1, h.canFollow.2.1⟩

/-- The table built from the grammar's own FIRST and FOLLOW sets. -/
theorem from_spec (G : GrammarOf eps init ps g) (h : HashOrder T) {ff : FirstFollow T}
    (F : FirstFollow.Spec eps ps ff) :
    ∃ t S, Transitions.from h g ff = .ok t ∧ TableOf ps S t ∧
      ∀ p ∈ ps, ∀ a, a ∈ S p ↔ Lead eps ps p a := by
  obtain ⟨t, ht⟩ := from_ok G h ff (by
    intro p hp
    obtain ⟨fs, h1, h2⟩ := pfs_spec G h F hp
    exact ⟨fs, h1, fun a ha => ((h2 a).1 ha).isTerminal.1⟩)
  refine ⟨t, pfs h g ff, ht, tableOf_of_from G ht, ?_⟩
  intro p hp a
  obtain ⟨fs, h1, h2⟩ := pfs_spec G h F hp
  rw [pfs_of_ok h1, h2]

end Transitions

end Verif
