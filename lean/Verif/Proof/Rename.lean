import Verif.Proof.RenameSim
import Verif.Proof.SimUse
import Verif.Props.Table

/-! # Renaming the symbols: derivations, tables, parsers -/

set_option linter.unusedSectionVars false

namespace Verif.Spec

variable {T T' : Type} [DecidableEq T] [DecidableEq T'] {eps : T} {ps : List (Production T)}
  {f : T → T'}

theorem map_inj (hf : ∀ x y, f x = f y → x = y) {a b : List T} (h : a.map f = b.map f) : a = b :=
  List.map_injective_iff.2 hf h

theorem isNonTerminal_ren (hf : ∀ x y, f x = f y → x = y) (x : T) :
    IsNonTerminal (ps.map (renProduction f)) (f x) ↔ IsNonTerminal ps x := by
  constructor
  · rintro ⟨p', hp', e⟩
    obtain ⟨p, hp, rfl⟩ := List.mem_map.1 hp'
    exact ⟨p, hp, hf _ _ e⟩
  · rintro ⟨p, hp, rfl⟩
    exact ⟨_, List.mem_map_of_mem hp, rfl⟩

theorem isTerminal_ren (hf : ∀ x y, f x = f y → x = y) (x : T) :
    IsTerminal (ps.map (renProduction f)) (f x) ↔ IsTerminal ps x := by
  unfold IsTerminal
  rw [isNonTerminal_ren hf]
  refine and_congr_left fun _ => ?_
  constructor
  · rintro ⟨p', hp', e⟩
    obtain ⟨p, hp, rfl⟩ := List.mem_map.1 hp'
    obtain ⟨y, hy, e⟩ := List.mem_map.1 e
    rw [hf _ _ e] at hy
    exact ⟨p, hp, hy⟩
  · rintro ⟨p, hp, h⟩
    exact ⟨_, List.mem_map_of_mem hp, List.mem_map_of_mem h⟩

theorem isTerminal_ren_range {x' : T'} (h : IsTerminal (ps.map (renProduction f)) x') :
    ∃ x, x' = f x := by
  obtain ⟨⟨p', hp', e⟩, _⟩ := h
  obtain ⟨p, hp, rfl⟩ := List.mem_map.1 hp'
  obtain ⟨y, hy, e⟩ := List.mem_map.1 e
  exact ⟨y, e.symm⟩

theorem rhs_ren (hf : ∀ x y, f x = f y → x = y) (p : Production T) :
    rhs (f eps) (renProduction f p) = (rhs eps p).map f := by
  unfold rhs renProduction
  by_cases h : p.output = [eps]
  · rw [if_pos h, if_pos (by simp [h])]; rfl
  · rw [if_neg h, if_neg (fun h' => h (map_inj hf (b := [eps]) (by simpa using h')))]

theorem wellFormed_ren (hf : ∀ x y, f x = f y → x = y) :
    WellFormed (f eps) (ps.map (renProduction f)) ↔ WellFormed eps ps := by
  unfold WellFormed
  rw [List.forall_mem_map]
  refine forall₂_congr fun p _ => ?_
  have e1 : f p.input = f eps ↔ p.input = eps := ⟨hf _ _, fun h => by rw [h]⟩
  have e2 : f eps ∈ p.output.map f ↔ eps ∈ p.output := by
    constructor
    · intro h
      obtain ⟨y, hy, e⟩ := List.mem_map.1 h
      rwa [hf _ _ e] at hy
    · exact List.mem_map_of_mem
  simp only [renProduction, ne_eq, e1, e2, List.map_eq_nil_iff, List.length_map]

theorem derives_ren (hf : ∀ x y, f x = f y → x = y) {a b : List T} (h : Derives eps ps a b) :
    Derives (f eps) (ps.map (renProduction f)) (a.map f) (b.map f) := by
  induction h with
  | refl => exact .refl _
  | step s _ ih =>
    obtain ⟨u, v, p, hp⟩ := s
    refine .step ?_ ih
    have := Step.mk (eps := f eps) (u.map f) (v.map f) _ (List.mem_map_of_mem (f := renProduction f) hp)
    rw [rhs_ren hf] at this
    simpa [renProduction] using this

theorem derives_of_ren (hf : ∀ x y, f x = f y → x = y) {a' b' : List T'}
    (h : Derives (f eps) (ps.map (renProduction f)) a' b') :
    ∀ a : List T, a' = a.map f → ∃ b, b' = b.map f ∧ Derives eps ps a b := by
  induction h with
  | refl => exact fun a e => ⟨a, e, .refl _⟩
  | step s _ ih =>
    intro a e
    obtain ⟨u', v', p', hp'⟩ := s
    obtain ⟨p, hp, rfl⟩ := List.mem_map.1 hp'
    obtain ⟨u, w, rfl, rfl, hw⟩ := List.map_eq_append_iff.1 e.symm
    obtain ⟨y, v, rfl, hy, rfl⟩ := List.map_eq_cons_iff.1 hw
    have hy' : y = p.input := hf _ _ hy
    subst hy'
    obtain ⟨b, rfl, hb⟩ := ih (u ++ rhs eps p ++ v) (by rw [rhs_ren hf]; simp)
    exact ⟨b, rfl, .step (.mk u v p hp) hb⟩

theorem nullable_ren (hf : ∀ x y, f x = f y → x = y) (x : T) :
    Nullable (f eps) (ps.map (renProduction f)) (f x) ↔ Nullable eps ps x := by
  constructor
  · intro h
    obtain ⟨b, e, hb⟩ := derives_of_ren hf h [x] rfl
    rw [List.map_eq_nil_iff.1 e.symm] at hb
    exact hb
  · exact fun h => derives_ren hf h

theorem canStart_ren (hf : ∀ x y, f x = f y → x = y) (x a : T) :
    CanStart (f eps) (ps.map (renProduction f)) (f x) (f a) ↔ CanStart eps ps x a := by
  unfold CanStart
  rw [isTerminal_ren hf]
  refine and_congr_right fun _ => and_congr ?_ ?_
  · exact not_congr ⟨hf _ _, fun h => by rw [h]⟩
  · constructor
    · rintro ⟨v', h⟩
      obtain ⟨b, e, hb⟩ := derives_of_ren hf h [x] rfl
      obtain ⟨y, v, rfl, hy, _⟩ := List.map_eq_cons_iff.1 e.symm
      rw [hf _ _ hy] at hb
      exact ⟨v, hb⟩
    · rintro ⟨v, h⟩
      exact ⟨_, derives_ren hf h⟩

theorem strNullable_ren (hf : ∀ x y, f x = f y → x = y) (l : List T) :
    StrNullable (f eps) (ps.map (renProduction f)) (l.map f) ↔ StrNullable eps ps l := by
  unfold StrNullable
  rw [List.forall_mem_map]
  simp only [nullable_ren hf]

theorem strFirst_ren (hf : ∀ x y, f x = f y → x = y) (l : List T) (a : T) :
    StrFirst (f eps) (ps.map (renProduction f)) (l.map f) (f a) ↔ StrFirst eps ps l a := by
  constructor
  · rintro ⟨w', y', v', e, hw, hy⟩
    obtain ⟨w, r, rfl, rfl, hr⟩ := List.map_eq_append_iff.1 e
    obtain ⟨y, v, rfl, rfl, rfl⟩ := List.map_eq_cons_iff.1 hr
    exact ⟨w, y, v, rfl, (strNullable_ren hf w).1 hw, (canStart_ren hf y a).1 hy⟩
  · rintro ⟨w, y, v, rfl, hw, hy⟩
    exact ⟨w.map f, f y, v.map f, by simp, (strNullable_ren hf w).2 hw, (canStart_ren hf y a).2 hy⟩

theorem followRule_ren (hf : ∀ x y, f x = f y → x = y) {x a : T} (h : FollowRule eps ps x a) :
    FollowRule (f eps) (ps.map (renProduction f)) (f x) (f a) := by
  induction h with
  | first hp hr hx ht ha =>
    rename_i p u t x a
    refine .first (List.mem_map_of_mem (f := renProduction f) hp) (u := u.map f) (t := t.map f) ?_ ((isNonTerminal_ren hf x).2 hx) ?_ ((strFirst_ren hf t a).2 ha)
    · rw [rhs_ren hf, hr]; simp
    · cases t with
      | nil => simp
      | cons y t =>
        intro e
        simp only [List.map_cons, List.head?_cons, Option.some.injEq] at e
        exact ht (by rw [hf _ _ e]; rfl)
  | last hp hr hx ht _ ih =>
    rename_i p u t x a _
    refine .last (List.mem_map_of_mem (f := renProduction f) hp) (u := u.map f) (t := t.map f) ?_ ((isNonTerminal_ren hf x).2 hx) ((strNullable_ren hf t).2 ht) ih
    rw [rhs_ren hf, hr]; simp

theorem followRule_of_ren (hf : ∀ x y, f x = f y → x = y) {x' a' : T'}
    (h : FollowRule (f eps) (ps.map (renProduction f)) x' a') :
    ∀ x a, x' = f x → a' = f a → FollowRule eps ps x a := by
  induction h with
  | first hp hr hx ht ha =>
    rintro x a rfl rfl
    obtain ⟨p, hp0, rfl⟩ := List.mem_map.1 hp
    rw [rhs_ren hf] at hr
    obtain ⟨u, r, hr0, rfl, hr'⟩ := List.map_eq_append_iff.1 hr
    obtain ⟨y, t, rfl, hy, rfl⟩ := List.map_eq_cons_iff.1 hr'
    obtain rfl := hf _ _ hy
    refine .first hp0 hr0 ((isNonTerminal_ren hf _).1 hx) ?_ ((strFirst_ren hf _ _).1 ha)
    intro e
    apply ht
    rw [List.head?_map, e]
    rfl
  | last hp hr hx ht _ ih =>
    rintro x a rfl rfl
    obtain ⟨p, hp0, rfl⟩ := List.mem_map.1 hp
    rw [rhs_ren hf] at hr
    obtain ⟨u, r, hr0, rfl, hr'⟩ := List.map_eq_append_iff.1 hr
    obtain ⟨y, t, rfl, hy, rfl⟩ := List.map_eq_cons_iff.1 hr'
    obtain rfl := hf _ _ hy
    exact .last hp0 hr0 ((isNonTerminal_ren hf _).1 hx) ((strNullable_ren hf _).1 ht) (ih _ _ rfl rfl)

theorem lead_ren (hf : ∀ x y, f x = f y → x = y) (p : Production T) (a : T) :
    Transitions.Lead (f eps) (ps.map (renProduction f)) (renProduction f p) (f a) ↔
      Transitions.Lead eps ps p a := by
  have hfo : ∀ x, FollowRule (f eps) (ps.map (renProduction f)) (f x) (f a) ↔ FollowRule eps ps x a :=
    fun x => ⟨fun h => followRule_of_ren hf h _ _ rfl rfl, followRule_ren hf⟩
  unfold Transitions.Lead
  rw [rhs_ren hf]
  refine or_congr ?_ ?_
  · rw [List.map_eq_nil_iff]
    exact and_congr_right fun _ => hfo p.input
  · constructor
    · rintro ⟨x', t', e, h⟩
      obtain ⟨x, t, e0, rfl, rfl⟩ := List.map_eq_cons_iff.1 e
      rw [canStart_ren hf, nullable_ren hf, hfo] at h
      exact ⟨x, t, e0, h⟩
    · rintro ⟨x, t, e, h⟩
      refine ⟨f x, t.map f, by rw [e]; rfl, ?_⟩
      rw [canStart_ren hf, nullable_ren hf, hfo]
      exact h

/-- The cells of the renamed table. -/
theorem cells_ren (hf : ∀ x y, f x = f y → x = y) {S : Production T → List T} {t : Transitions T}
    {S' : Production T' → List T'} {t' : Transitions T'} (hS : Transitions.TableOf ps S t)
    (hL : ∀ p ∈ ps, ∀ a, a ∈ S p ↔ Transitions.Lead eps ps p a)
    (hS' : Transitions.TableOf (ps.map (renProduction f)) S' t')
    (hL' : ∀ p ∈ ps.map (renProduction f), ∀ a, a ∈ S' p ↔
      Transitions.Lead (f eps) (ps.map (renProduction f)) p a) (A a : T) :
    t'.getProductions (f A) (f a) = (t.getProductions A a).map (List.map (renProduction f)) := by
  have hnt := isNonTerminal_ren (ps := ps) hf A
  have htm := isTerminal_ren (ps := ps) hf a
  by_cases hc : IsNonTerminal ps A ∧ IsTerminal ps a
  · rw [hS.some A a hc.1 hc.2, hS'.some _ _ (hnt.2 hc.1) (htm.2 hc.2)]
    simp only [Option.map_some, Option.some.injEq]
    rw [List.filter_map]
    congr 1
    apply List.filter_congr
    intro q hq
    simp only [Function.comp_apply, decide_eq_decide]
    rw [hL q hq, hL' _ (List.mem_map_of_mem hq), lead_ren hf]
    exact and_congr_left fun _ => ⟨hf _ _, fun h => by rw [← h]; rfl⟩
  · rw [hS.none A a hc, hS'.none _ _ (by rw [hnt, htm]; exact hc)]
    rfl

end Verif.Spec

namespace Verif.Parser.Ren

open Spec

variable {σ L T T' : Type} [DecidableEq T] [DecidableEq T'] {eps init : T}
  {ps : List (Production T)} {f : T → T'}

theorem renAgree_of_built (hf : ∀ x y, f x = f y → x = y) {h : HashOrder T} {h' : HashOrder T'}
    {g : Grammar T} {g' : Grammar T'} (hg : Grammar.new h eps init ps = .ok g)
    (hg' : Grammar.new h' (f eps) (f init) (ps.map (renProduction f)) = .ok g')
    {solver : Option (Solver σ L T)} {solver' : Option (Solver σ L T')} {p : Parser σ L T}
    {p' : Parser σ L T'} (hp : Built h g solver p) (hp' : Built h' g' solver' p') :
    RenAgree f p p' := by
  have P := (tableParser_of_built hg hp).1
  have P' := (tableParser_of_built hg' hp').1
  obtain ⟨ff, hff, e⟩ := (built_iff hg).1 hp
  obtain ⟨ff', hff', e'⟩ := (built_iff hg').1 hp'
  refine ⟨hf, ?_, ?_, ?_, ?_⟩
  · rw [P.grammar.eps_eq, P'.grammar.eps_eq]
  · rw [P.grammar.init_eq, P'.grammar.init_eq]
  · intro x
    rw [Bool.eq_iff_iff, isNT_iff P.toParserOf, isNT_iff P'.toParserOf, isNonTerminal_ren hf]
  · intro x a
    rw [getTokenProductions_eq, getTokenProductions_eq]
    unfold candidates
    obtain ⟨S, hS, hL⟩ := Props.table_spec hg hff (from_eq_ok e).2.2
    obtain ⟨S', hS', hL'⟩ := Props.table_spec hg' hff' (from_eq_ok e').2.2
    rw [cells_ren hf hS hL hS' hL' x a]
    cases p.transitions.getProductions x a with
    | none => rfl
    | some l => simp [renProduction]

theorem fixSim_of_renamed {p : Parser σ L T} {p' : Parser σ L T'} {tokens : List (Token L T)}
    (hs : SolversRenamed f p.syntaxErrorSolver p'.syntaxErrorSolver) :
    FixSim eps ps p p' tokens f := by
  intro x pos outs sg failed _ _ _
  unfold tryFixProductions
  generalize p.syntaxErrorSolver = o at hs
  generalize p'.syntaxErrorSolver = o' at hs
  cases hs with
  | none => exact .pure rfl
  | some sv sv' h =>
    have key : ∀ {x : M σ (Option (FixResult L T))} {y : M σ (Option (FixResult L T'))},
        (∀ s, y s = renAnswer f (x s)) → Sim Eq (Option.map (renFix f)) x y := by
      intro x y hxy s s' e
      subst e
      rw [hxy]
      cases x s with
      | ok r => exact ⟨r.2, rfl, rfl⟩
      | panic e => rfl
      | fuel => rfl
    simp only
    cases sg with
    | false => exact .pure rfl
    | true =>
      simp only [if_true]
      split
      · cases failed with
        | nil => exact .panic _
        | cons fp fps => exact key fun s => h.one tokens pos fp s
      · exact key fun s => h.many tokens pos failed s

end Verif.Parser.Ren
