import Verif.Proof.Unused
import Verif.Proof.Context
import Verif.Spec.Lists

/-!
# Brackets, optional parts and lists with separators
-/

set_option linter.unusedSectionVars false

namespace Verif

open Spec

variable {L T : Type} [DecidableEq T] {eps : T} {ps : List (Production T)}

theorem occ_one {x p : T} {u t : List T} (h : [p] = u ++ x :: t) : p = x ∧ u = [] ∧ t = [] := by
  rcases u with _ | ⟨y, u⟩
  · simp only [List.nil_append, List.cons.injEq] at h
    exact ⟨h.1, rfl, h.2.symm⟩
  · simp at h

theorem occ_cons {x p : T} {l u t : List T} (h : p :: l = u ++ x :: t) :
    (p = x ∧ u = [] ∧ t = l) ∨ ∃ u', u = p :: u' ∧ l = u' ++ x :: t := by
  rcases u with _ | ⟨y, u⟩
  · simp only [List.nil_append, List.cons.injEq] at h
    exact .inl ⟨h.1, rfl, h.2.symm⟩
  · simp only [List.cons_append, List.cons.injEq] at h
    exact .inr ⟨u, by rw [h.1], h.2⟩

theorem Spec.FollowRule.inv {x c : T} (h : FollowRule eps ps x c) : ∃ p ∈ ps, ∃ u t, rhs eps p = u ++ x :: t ∧
    (StrFirst eps ps t c ∨ (StrNullable eps ps t ∧ FollowRule eps ps p.input c)) := by
  cases h with
  | first hp hr _ _ hc => exact ⟨_, hp, _, _, hr, .inl hc⟩
  | last hp hr _ ht hf => exact ⟨_, hp, _, _, hr, .inr ⟨ht, hf⟩⟩

theorem not_strFirst_nil {c : T} : ¬ StrFirst eps ps [] c := by
  rintro ⟨w, y, v, e, _⟩
  simp at e

theorem strFirst_terminal {x c : T} {l : List T} (hx : ¬ IsNonTerminal ps x) (h : StrFirst eps ps (x :: l) c) :
    c = x := by
  obtain ⟨w, y, v, e, hw, _, _, v', hd⟩ := h
  rcases w with _ | ⟨z, w⟩
  · simp only [List.nil_append, List.cons.injEq] at e
    obtain ⟨rfl, rfl⟩ := e
    have := Derives.terminal_eq hx hd
    simp only [List.cons.injEq] at this
    exact this.1
  · simp only [List.cons_append, List.cons.injEq] at e
    obtain ⟨rfl, rfl⟩ := e
    have := Derives.terminal_eq hx (hw x (by simp))
    simp at this

theorem not_strNullable_terminal {x : T} {l : List T} (hx : ¬ IsNonTerminal ps x) :
    ¬ StrNullable eps ps (x :: l) := by
  intro h
  have := Derives.terminal_eq hx (h x (by simp))
  simp at this

theorem terminal_starts {x : T} {l : List T} (hx : IsTerminal ps x) (he : x ≠ eps) : StrFirst eps ps (x :: l) x :=
  ⟨[], x, l, rfl, strNullable_nil, hx, he, [], .refl _⟩

/-- What follows the initial symbol if it has an end marker and occurs nowhere else. -/
theorem followRule_initial {x start stop c : T} (hf : Fresh eps ps start stop) (hx : ∀ p ∈ ps, x ∉ p.output)
    (hxs : x ≠ stop) (h : FollowRule eps (augment x start stop ps) x c) : c = stop := by
  have hr0 : rhs eps (⟨start, [x, stop]⟩ : Production T) = [x, stop] := rhs_of_mem (x := stop) (by simp) hf.stop_ne_eps
  have hstop : ¬ IsNonTerminal (augment x start stop ps) stop := hf.stop_terminal
  obtain ⟨p, hp, u, t, hr, h⟩ := h.inv
  rcases mem_augment.1 hp with rfl | hp
  · rw [hr0] at hr
    rcases occ_cons hr with ⟨-, -, rfl⟩ | ⟨u', rfl, hr2⟩
    · rcases h with h | ⟨h, -⟩
      · exact strFirst_terminal hstop h
      · exact absurd h (not_strNullable_terminal hstop)
    · exact absurd (occ_one hr2).1.symm hxs
  · exact absurd (output_of_rhs hr ▸ by simp) (hx p hp)

theorem followRule_stop {x start stop : T} (hf : Fresh eps ps start stop) (hx : IsNonTerminal ps x) :
    FollowRule eps (augment x start stop ps) x stop :=
  (Context.augment hf hx).into stop rfl

/-! ## Brackets -/

namespace Bracketed

variable {start op a cl : T} (hb : Brackets eps ps start op cl) (ha : IsNonTerminal ps a)

theorem mem_iff {r : Production T} : r ∈ bracketed start op a cl ps ↔ r = ⟨start, [op, a, cl]⟩ ∨ r ∈ ps := by
  simp [bracketed]

include hb in
theorem embeds : Embeds ps (bracketed start op a cl ps) where
  sub r hr := mem_iff.2 (.inr hr)
  new r hr := by
    rcases mem_iff.1 hr with rfl | hr
    · exact .inr fun p hp => ⟨(hb.new_start.2 p hp).1.symm, (hb.new_start.2 p hp).2⟩
    · exact .inl hr

theorem isNonTerminal_iff {x : T} : IsNonTerminal (bracketed start op a cl ps) x ↔ x = start ∨ IsNonTerminal ps x := by
  unfold IsNonTerminal
  constructor
  · rintro ⟨r, hr, rfl⟩
    rcases mem_iff.1 hr with rfl | h
    · exact .inl rfl
    · exact .inr ⟨r, h, rfl⟩
  · rintro (rfl | ⟨r, h, rfl⟩)
    · exact ⟨_, mem_iff.2 (.inl rfl), rfl⟩
    · exact ⟨r, mem_iff.2 (.inr h), rfl⟩

include hb in
theorem rhs_start : rhs eps ⟨start, [op, a, cl]⟩ = [op, a, cl] := rhs_of_mem (x := op) (by simp) hb.op_ne_eps

include hb in
theorem start_only {r : Production T} (hr : r ∈ bracketed start op a cl ps) (e : r.input = start) :
    r = ⟨start, [op, a, cl]⟩ :=
  (mem_iff.1 hr).resolve_right fun h => (hb.new_start.2 r h).1 e

include hb in
theorem op_terminal : ¬ IsNonTerminal (bracketed start op a cl ps) op := fun h =>
  (isNonTerminal_iff.1 h).elim (fun e => hb.differ.1 e.symm) hb.op_terminal

include hb in
theorem cl_terminal : ¬ IsNonTerminal (bracketed start op a cl ps) cl := fun h =>
  (isNonTerminal_iff.1 h).elim (fun e => hb.differ.2.1 e.symm) fun ⟨p, hp, e⟩ => (hb.new_cl.2 p hp).1 e

include hb ha in
theorem distinct : a ≠ start ∧ a ≠ op ∧ a ≠ cl := by
  refine ⟨?_, fun e => hb.op_terminal (e ▸ ha), ?_⟩
  · obtain ⟨p, hp, rfl⟩ := ha
    exact (hb.new_start.2 p hp).1
  · obtain ⟨p, hp, rfl⟩ := ha
    exact (hb.new_cl.2 p hp).1

include hb ha in
theorem wellFormed (h1 : WellFormed eps ps) : WellFormed eps (bracketed start op a cl ps) := by
  intro r hr
  rcases mem_iff.1 hr with rfl | hr
  · refine ⟨hb.new_start.1, by simp, fun h => ?_⟩
    obtain ⟨p, hp, ea⟩ := ha
    simp only [List.mem_cons, List.not_mem_nil, or_false] at h
    rcases h with h | rfl | h
    · exact absurd h.symm hb.op_ne_eps
    · exact absurd ea (h1 p hp).1
    · exact absurd h.symm hb.new_cl.1
  · exact h1 r hr

include hb in
theorem expands_terminal {x : T} (hx : ¬ IsNonTerminal (bracketed start op a cl ps) x) (he : x ≠ eps) :
    Expands eps (bracketed start op a cl ps) x [x] := .leaf x hx he

include hb ha in
theorem sentence_iff {w : List T} : Sentence eps start (bracketed start op a cl ps) w ↔
    ∃ v, w = op :: v ++ [cl] ∧ Sentence eps a ps v := by
  have hns : IsNonTerminal (bracketed start op a cl ps) start := isNonTerminal_iff.2 (.inl rfl)
  have hna : IsNonTerminal (bracketed start op a cl ps) a := isNonTerminal_iff.2 (.inr ha)
  rw [sentence_iff_expands hns]
  constructor
  · intro h
    rcases h.inv with hn | ⟨q, hq, hx, hw⟩
    · exact absurd hns hn
    · have := start_only hb hq hx
      subst this
      rw [rhs_start hb] at hw
      cases hw with
      | cons _ _ u v k1 k2 =>
        cases k2 with
        | cons _ _ v v' k2 k3 =>
          rw [k1.terminal (op_terminal hb), (ExpandsAll.single.1 k3).terminal (cl_terminal hb)]
          refine ⟨v, by simp, ?_⟩
          rw [← (embeds hb).sentence ha, sentence_iff_expands hna]
          exact k2
  · rintro ⟨v, rfl, hv⟩
    rw [← (embeds hb).sentence ha, sentence_iff_expands hna] at hv
    refine .node ⟨start, [op, a, cl]⟩ _ (mem_iff.2 (.inl rfl)) ?_
    rw [rhs_start hb]
    have h3 := ExpandsAll.single.2 (Expands.leaf (eps := eps) cl (cl_terminal hb (a := a)) hb.new_cl.1)
    have := ExpandsAll.cons op [a, cl] [op] (v ++ [cl]) (.leaf op (op_terminal hb) hb.op_ne_eps) (.cons a [cl] v [cl] hv h3)
    simpa using this

include hb ha in
theorem tree {w : List (Token L T)} {n : Node L T} (h : IsTree eps (bracketed start op a cl ps) start w n) :
    ∃ t v m t', w = t :: v ++ [t'] ∧ t.tType = op ∧ t'.tType = cl ∧ IsTree eps ps a v m ∧
      n = .mk [.mk [] t, m, .mk [] t'] ⟨none, start⟩ := by
  have E := embeds hb (a := a)
  have hleaf : ∀ {x : T} {w : List (Token L T)} {n : Node L T}, ¬ IsNonTerminal (bracketed start op a cl ps) x →
      x ≠ eps → IsTree eps (bracketed start op a cl ps) x w n → ∃ t, w = [t] ∧ n = .mk [] t ∧ t.tType = x := by
    intro x w n hx he h
    cases h with
    | leaf t _ _ => exact ⟨t, rfl, rfl, rfl⟩
    | eps => exact absurd rfl he
    | node q _ _ hq _ => exact absurd ⟨q, hq, rfl⟩ hx
  rcases isTree_inv h with ⟨hn, _⟩ | ⟨hx, _⟩ | ⟨q, hq, hx, ns, rfl, hns⟩
  · exact absurd (isNonTerminal_iff.2 (.inl rfl)) hn
  · exact absurd hx hb.new_start.1
  · have := start_only hb hq hx
    subst this
    cases hns with
    | cons _ _ u v n1 ns k1 k2 =>
      cases k2 with
      | cons _ _ v v' m ns k2 k3 =>
        cases k3 with
        | cons _ _ v1 v2 n3 ns k3 k4 =>
          cases k4
          obtain ⟨t, rfl, rfl, e1⟩ := hleaf (op_terminal hb) hb.op_ne_eps k1
          obtain ⟨t', rfl, rfl, e2⟩ := hleaf (cl_terminal hb) hb.new_cl.1 k3
          exact ⟨t, v, m, t', by simp, e1, e2, E.tree k2 (E.old_nt ha), rfl⟩

include hb ha in
theorem tree_mk {t t' : Token L T} {v : List (Token L T)} {m : Node L T} (h1 : t.tType = op) (h2 : t'.tType = cl)
    (hm : IsTree eps ps a v m) :
    IsTree eps (bracketed start op a cl ps) start (t :: v ++ [t']) (.mk [.mk [] t, m, .mk [] t'] ⟨none, start⟩) := by
  have E := embeds hb (a := a)
  refine .node ⟨start, [op, a, cl]⟩ _ _ (mem_iff.2 (.inl rfl)) ?_
  have k1 : IsTree (L := L) eps (bracketed start op a cl ps) op [t] (.mk [] t) :=
    h1 ▸ .leaf t (h1 ▸ op_terminal hb) (h1 ▸ hb.op_ne_eps)
  have k3 : IsTree (L := L) eps (bracketed start op a cl ps) cl [t'] (.mk [] t') :=
    h2 ▸ .leaf t' (h2 ▸ cl_terminal hb) (h2 ▸ hb.new_cl.1)
  have k4 := IsForest.cons cl [] _ [] _ [] k3 .nil
  have := IsForest.cons op [a, cl] _ _ _ _ k1 (.cons a [cl] _ _ _ _ (E.tree_mono hm (E.old_nt ha)) k4)
  simpa using this

include hb ha in
theorem endMarked : EndMarked eps start cl (bracketed start op a cl ps) where
  ne_eps := hb.new_cl.1
  terminal := cl_terminal hb
  initial_once r hr := by
    rcases mem_iff.1 hr with rfl | hr
    · simp only [List.mem_cons, List.not_mem_nil, or_false, not_or]
      exact ⟨hb.differ.1, (distinct hb ha).1.symm, hb.differ.2.1⟩
    · exact (hb.new_start.2 r hr).2
  initial_ends r hr e := by
    rw [start_only hb hr e]
    exact ⟨[op, a], rfl, by simpa using ⟨hb.differ.2.2.symm, (distinct hb ha).2.2.symm⟩⟩
  only_there r hr e := by
    rcases mem_iff.1 hr with rfl | hr
    · exact absurd rfl e
    · exact (hb.new_cl.2 r hr).2

include hb ha in
theorem notLeftRecursive : NotLeftRecursive eps (bracketed start op a cl ps) ↔ NotLeftRecursive eps ps := by
  have E := embeds hb (a := a)
  refine ⟨E.notLeftRec, fun k x v h => ?_⟩
  obtain ⟨m, hs, hd⟩ := id h
  obtain ⟨q, hq, rfl, rfl⟩ := Step.single hs
  rcases mem_iff.1 hq with rfl | hq
  · rw [rhs_start hb] at hd
    obtain ⟨c1, c2, e, k1, -⟩ := Derives.cons_split hd
    rw [Derives.terminal_eq (op_terminal hb) k1] at e
    simp only [List.cons_append, List.cons.injEq] at e
    exact hb.differ.1 e.1
  · exact k _ v (E.leftRec (E.old_nt ⟨q, hq, rfl⟩) h)

include hb ha in
theorem noAdjacentRepeat : NoAdjacentRepeat (bracketed start op a cl ps) ↔ NoAdjacentRepeat ps := by
  have E := embeds hb (a := a)
  constructor
  · exact fun h p hp u x v e hx => h p (mem_iff.2 (.inr hp)) u x v e (isNonTerminal_iff.2 (.inr hx))
  · intro k p hp u x v e hx
    rcases mem_iff.1 hp with rfl | hp
    · obtain ⟨h1, h2, h3⟩ := distinct hb ha
      rcases occ_cons e with ⟨h, rfl, e'⟩ | ⟨u', rfl, e2⟩
      · simp only [List.cons.injEq] at e'
        exact h2 (e'.1.symm.trans h.symm)
      · rcases occ_cons e2 with ⟨h, rfl, e'⟩ | ⟨u', rfl, e3⟩
        · simp only [List.cons.injEq] at e'
          exact h3 (h.trans e'.1)
        · have := occ_one e3
          simp at this
    · exact k p hp u x v e ((E.isNonTerminal (E.old_output hp (by rw [e]; simp))).1 hx)

include hb ha in
theorem context : Context eps a (fun c => c = cl) ps (bracketed start op a cl ps) := by
  have hcl := cl_terminal hb (a := a)
  obtain ⟨d1, d2, d3⟩ := distinct hb ha
  have hocc : ∀ r ∈ bracketed start op a cl ps, r ∉ ps → ∀ u t, rhs eps r = u ++ a :: t → t = [cl] := by
    intro r hr hn u t e
    rw [(mem_iff.1 hr).resolve_right hn, rhs_start hb] at e
    rcases occ_cons e with ⟨h, -, -⟩ | ⟨u', rfl, e2⟩
    · exact absurd h.symm d2
    · rcases occ_cons e2 with ⟨-, -, h⟩ | ⟨u', rfl, e3⟩
      · exact h
      · exact absurd (occ_one e3).1.symm d3
  refine { toEmbeds := embeds hb, uses := ?_, nt := ha, into := ?_, first := ?_, last := ?_ }
  · intro r hr
    rcases mem_iff.1 hr with rfl | hr
    · refine .inr fun y hy hn => ?_
      simp only [List.mem_cons, List.not_mem_nil, or_false] at hy
      rcases hy with rfl | h | rfl
      · exact absurd hn hb.op_terminal
      · exact h
      · exact absurd (isNonTerminal_iff.2 (.inr hn)) hcl
    · exact .inl hr
  · rintro c rfl
    refine .first (p := ⟨start, [op, a, c]⟩) (u := [op]) (t := [c]) (mem_iff.2 (.inl rfl)) (rhs_start hb)
      (isNonTerminal_iff.2 (.inr ha)) (by simpa using d3.symm) ?_
    exact terminal_starts ⟨⟨_, mem_iff.2 (.inl rfl), by simp⟩, hcl⟩ hb.new_cl.1
  · intro r hr hn u t e _ c hc
    rw [hocc r hr hn u t e] at hc
    exact strFirst_terminal hcl hc
  · intro r hr hn u t e ht
    rw [hocc r hr hn u t e] at ht
    exact absurd ht (not_strNullable_terminal hcl)

end Bracketed

/-! ## Optional parts -/

namespace Opt

variable {opt a : T} (hn : NewSymbol eps ps opt) (ha : IsNonTerminal ps a)

theorem mem_iff {r : Production T} : r ∈ optional eps opt a ps ↔ r = ⟨opt, [a]⟩ ∨ r = ⟨opt, [eps]⟩ ∨ r ∈ ps := by
  simp [Spec.optional]

include hn in
theorem embeds : Embeds ps (optional eps opt a ps) where
  sub r hr := mem_iff.2 (.inr (.inr hr))
  new r hr := by
    rcases mem_iff.1 hr with rfl | rfl | hr
    · exact .inr fun p hp => ⟨(hn.2 p hp).1.symm, (hn.2 p hp).2⟩
    · exact .inr fun p hp => ⟨(hn.2 p hp).1.symm, (hn.2 p hp).2⟩
    · exact .inl hr

theorem isNonTerminal_iff {x : T} : IsNonTerminal (optional eps opt a ps) x ↔ x = opt ∨ IsNonTerminal ps x := by
  unfold IsNonTerminal
  constructor
  · rintro ⟨r, hr, rfl⟩
    rcases mem_iff.1 hr with rfl | rfl | h
    · exact .inl rfl
    · exact .inl rfl
    · exact .inr ⟨r, h, rfl⟩
  · rintro (rfl | ⟨r, h, rfl⟩)
    · exact ⟨_, mem_iff.2 (.inl rfl), rfl⟩
    · exact ⟨r, mem_iff.2 (.inr (.inr h)), rfl⟩

include hn ha in
theorem ne : a ≠ opt := by
  obtain ⟨p, hp, rfl⟩ := ha
  exact (hn.2 p hp).1

theorem rhs_opt (h1 : WellFormed eps ps) (ha : IsNonTerminal ps a) : rhs eps ⟨opt, [a]⟩ = [a] := by
  apply rhs_of_mem (x := a) (by simp)
  obtain ⟨p, hp, rfl⟩ := ha
  exact (h1 p hp).1

theorem rhs_eps : rhs eps ⟨opt, [eps]⟩ = [] := by simp [rhs]

include hn ha in
theorem wellFormed (h1 : WellFormed eps ps) : WellFormed eps (optional eps opt a ps) := by
  intro r hr
  rcases mem_iff.1 hr with rfl | rfl | hr
  · exact ⟨hn.1, by simp, by simp⟩
  · exact ⟨hn.1, by simp, by simp⟩
  · exact h1 r hr

include hn in
theorem opt_only {r : Production T} (hr : r ∈ optional eps opt a ps) (e : r.input = opt) :
    r = ⟨opt, [a]⟩ ∨ r = ⟨opt, [eps]⟩ := by
  rcases mem_iff.1 hr with h | h | h
  · exact .inl h
  · exact .inr h
  · exact absurd e (hn.2 r h).1

include hn ha in
theorem sentence_iff (h1 : WellFormed eps ps) {w : List T} :
    Sentence eps opt (optional eps opt a ps) w ↔ w = [] ∨ Sentence eps a ps w := by
  have hno : IsNonTerminal (optional eps opt a ps) opt := isNonTerminal_iff.2 (.inl rfl)
  have hna : IsNonTerminal (optional eps opt a ps) a := isNonTerminal_iff.2 (.inr ha)
  rw [sentence_iff_expands hno, ← (embeds hn (a := a)).sentence ha, sentence_iff_expands hna]
  constructor
  · intro h
    rcases h.inv with h | ⟨q, hq, hx, hw⟩
    · exact absurd hno h
    · rcases opt_only hn hq hx with rfl | rfl
      · rw [rhs_opt h1 ha] at hw
        exact .inr (ExpandsAll.single.1 hw)
      · rw [rhs_eps] at hw
        cases hw
        exact .inl rfl
  · rintro (rfl | h)
    · refine .node ⟨opt, [eps]⟩ _ (mem_iff.2 (.inr (.inl rfl))) ?_
      rw [rhs_eps]
      exact .nil
    · refine .node ⟨opt, [a]⟩ _ (mem_iff.2 (.inl rfl)) ?_
      rw [rhs_opt h1 ha]
      exact ExpandsAll.single.2 h

include hn ha in
theorem notLeftRecursive (h1 : WellFormed eps ps) :
    NotLeftRecursive eps (optional eps opt a ps) ↔ NotLeftRecursive eps ps := by
  have E := embeds hn (a := a)
  refine ⟨E.notLeftRec, fun k x v h => ?_⟩
  obtain ⟨m, hs, hd⟩ := id h
  obtain ⟨q, hq, rfl, rfl⟩ := Step.single hs
  rcases mem_iff.1 hq with rfl | rfl | hq
  · rw [rhs_opt h1 ha] at hd
    have := (E.derives hd (by simpa using E.old_nt ha)).2 opt (by simp) ⟨opt, [a]⟩ (mem_iff.2 (.inl rfl)) rfl
    exact (hn.2 _ this).1 rfl
  · rw [rhs_eps] at hd
    exact absurd hd.nil_eq (by simp)
  · exact k _ v (E.leftRec (E.old_nt ⟨q, hq, rfl⟩) h)

include hn in
theorem noAdjacentRepeat : NoAdjacentRepeat (optional eps opt a ps) ↔ NoAdjacentRepeat ps := by
  have E := embeds hn (a := a)
  constructor
  · exact fun h p hp u x v e hx => h p (mem_iff.2 (.inr (.inr hp))) u x v e (isNonTerminal_iff.2 (.inr hx))
  · intro k p hp u x v e hx
    rcases mem_iff.1 hp with rfl | rfl | hp
    · have := occ_one e
      simp at this
    · have := occ_one e
      simp at this
    · exact k p hp u x v e ((E.isNonTerminal (E.old_output hp (by rw [e]; simp))).1 hx)

section
variable {start stop : T} (hf : Fresh eps (optional eps opt a ps) start stop)
include hn ha hf

theorem follow_opt {c : T} (h : FollowRule eps (augment opt start stop (optional eps opt a ps)) opt c) : c = stop := by
  refine followRule_initial hf ?_ ?_ h
  · intro r hr
    rcases mem_iff.1 hr with rfl | rfl | hr
    · simpa using (ne hn ha).symm
    · simpa using hn.1
    · exact (hn.2 r hr).2
  · exact (hf.stop_unused ⟨opt, [eps]⟩ (mem_iff.2 (.inr (.inl rfl)))).1

theorem context (h1 : WellFormed eps ps) :
    Context eps a (fun c => c = stop) ps (augment opt start stop (optional eps opt a ps)) := by
  have hstop := hf.stop_terminal (init := opt)
  have hr0 : rhs eps (⟨start, [opt, stop]⟩ : Production T) = [opt, stop] :=
    rhs_of_mem (x := stop) (by simp) hf.stop_ne_eps
  have hnopt : ¬ IsNonTerminal ps opt := fun ⟨p, hp, e⟩ => (hn.2 p hp).1 e
  have hna : IsNonTerminal (augment opt start stop (optional eps opt a ps)) a := by
    obtain ⟨p, hp, e⟩ := ha
    exact ⟨p, mem_augment.2 (.inr (mem_iff.2 (.inr (.inr hp)))), e⟩
  have hocc : ∀ r ∈ augment opt start stop (optional eps opt a ps), r ∉ ps → ∀ u t, rhs eps r = u ++ a :: t →
      r = ⟨opt, [a]⟩ ∧ t = [] := by
    intro r hr hnr u t e
    rcases mem_augment.1 hr with rfl | hr
    · rw [hr0] at e
      rcases occ_cons e with ⟨h, -, -⟩ | ⟨u', rfl, e2⟩
      · exact absurd h.symm (ne hn ha)
      · exact absurd (occ_one e2).1 (fun e => hstop (e ▸ hna))
    · rcases mem_iff.1 hr with rfl | rfl | hr
      · rw [rhs_opt h1 ha] at e
        exact ⟨rfl, (occ_one e).2.2⟩
      · rw [rhs_eps] at e
        simp at e
      · exact absurd hr hnr
  refine { toEmbeds := (embeds hn).augment hf, uses := ?_, nt := ha, into := ?_, first := ?_, last := ?_ }
  · refine Embeds.Uses.augment (embeds hn) hf ?_ fun h => absurd h hnopt
    intro r hr
    rcases mem_iff.1 hr with rfl | rfl | hr
    · exact .inr fun y hy _ => by simpa using hy
    · refine .inr fun y hy ⟨p, hp, e⟩ => ?_
      simp only [List.mem_cons, List.not_mem_nil, or_false] at hy
      exact absurd (e.trans hy) (h1 p hp).1
    · exact .inl hr
  · rintro c rfl
    refine .last (p := ⟨opt, [a]⟩) (u := []) (t := []) (mem_augment.2 (.inr (mem_iff.2 (.inl rfl)))) (rhs_opt h1 ha)
      hna strNullable_nil ?_
    exact followRule_stop hf (isNonTerminal_iff.2 (.inl rfl))
  · intro r hr hnr u t e _ c hc
    rw [(hocc r hr hnr u t e).2] at hc
    exact absurd hc not_strFirst_nil
  · intro r hr hnr u t e _ c hc
    rw [(hocc r hr hnr u t e).1] at hc
    exact follow_opt hn ha hf hc

end

end Opt

/-! ## Lists with separators -/

namespace Sep

variable {list rest sep a : T} (hs : Separators eps ps list rest sep) (ha : IsNonTerminal ps a)

theorem mem_iff {r : Production T} : r ∈ separated eps list rest sep a ps ↔
    r = ⟨list, [a, rest]⟩ ∨ r = ⟨rest, [sep, a, rest]⟩ ∨ r = ⟨rest, [eps]⟩ ∨ r ∈ ps := by
  simp [separated]

theorem mem1 : (⟨list, [a, rest]⟩ : Production T) ∈ separated eps list rest sep a ps := mem_iff.2 (.inl rfl)
theorem mem2 : (⟨rest, [sep, a, rest]⟩ : Production T) ∈ separated eps list rest sep a ps :=
  mem_iff.2 (.inr (.inl rfl))
theorem mem3 : (⟨rest, [eps]⟩ : Production T) ∈ separated eps list rest sep a ps :=
  mem_iff.2 (.inr (.inr (.inl rfl)))

include hs in
theorem embeds : Embeds ps (separated eps list rest sep a ps) where
  sub r hr := mem_iff.2 (.inr (.inr (.inr hr)))
  new r hr := by
    rcases mem_iff.1 hr with rfl | rfl | rfl | hr
    · exact .inr fun p hp => ⟨(hs.new_list.2 p hp).1.symm, (hs.new_list.2 p hp).2⟩
    · exact .inr fun p hp => ⟨(hs.new_rest.2 p hp).1.symm, (hs.new_rest.2 p hp).2⟩
    · exact .inr fun p hp => ⟨(hs.new_rest.2 p hp).1.symm, (hs.new_rest.2 p hp).2⟩
    · exact .inl hr

theorem isNonTerminal_iff {x : T} : IsNonTerminal (separated eps list rest sep a ps) x ↔
    x = list ∨ x = rest ∨ IsNonTerminal ps x := by
  unfold IsNonTerminal
  constructor
  · rintro ⟨r, hr, rfl⟩
    rcases mem_iff.1 hr with rfl | rfl | rfl | h
    · exact .inl rfl
    · exact .inr (.inl rfl)
    · exact .inr (.inl rfl)
    · exact .inr (.inr ⟨r, h, rfl⟩)
  · rintro (rfl | rfl | ⟨r, h, rfl⟩)
    · exact ⟨_, mem1, rfl⟩
    · exact ⟨_, mem2, rfl⟩
    · exact ⟨r, mem_iff.2 (.inr (.inr (.inr h))), rfl⟩

include hs ha in
theorem ne : a ≠ list ∧ a ≠ rest ∧ a ≠ sep := by
  obtain ⟨p, hp, rfl⟩ := ha
  exact ⟨(hs.new_list.2 p hp).1, (hs.new_rest.2 p hp).1, (hs.new_sep.2 p hp).1⟩

include hs in
theorem rhs1 : rhs eps ⟨list, [a, rest]⟩ = [a, rest] := rhs_of_mem (x := rest) (by simp) hs.new_rest.1

include hs in
theorem rhs2 : rhs eps ⟨rest, [sep, a, rest]⟩ = [sep, a, rest] := rhs_of_mem (x := rest) (by simp) hs.new_rest.1

theorem rhs3 : rhs eps ⟨rest, [eps]⟩ = [] := by simp [rhs]

include hs in
theorem sep_terminal : ¬ IsNonTerminal (separated eps list rest sep a ps) sep := by
  rw [isNonTerminal_iff]
  rintro (e | e | ⟨p, hp, e⟩)
  · exact hs.differ.2.1 e.symm
  · exact hs.differ.2.2 e.symm
  · exact (hs.new_sep.2 p hp).1 e

include hs ha in
theorem wellFormed (h1 : WellFormed eps ps) : WellFormed eps (separated eps list rest sep a ps) := by
  have hae : a ≠ eps := by
    obtain ⟨p, hp, rfl⟩ := ha
    exact (h1 p hp).1
  intro r hr
  rcases mem_iff.1 hr with rfl | rfl | rfl | hr
  · refine ⟨hs.new_list.1, by simp, fun h => ?_⟩
    simp only [List.mem_cons, List.not_mem_nil, or_false] at h
    rcases h with h | h
    · exact absurd h.symm hae
    · exact absurd h.symm hs.new_rest.1
  · refine ⟨hs.new_rest.1, by simp, fun h => ?_⟩
    simp only [List.mem_cons, List.not_mem_nil, or_false] at h
    rcases h with h | h | h
    · exact absurd h.symm hs.new_sep.1
    · exact absurd h.symm hae
    · exact absurd h.symm hs.new_rest.1
  · exact ⟨hs.new_rest.1, by simp, by simp⟩
  · exact h1 r hr

include hs in
theorem list_only {r : Production T} (hr : r ∈ separated eps list rest sep a ps) (e : r.input = list) :
    r = ⟨list, [a, rest]⟩ := by
  rcases mem_iff.1 hr with h | rfl | rfl | h
  · exact h
  · exact absurd e hs.differ.1.symm
  · exact absurd e hs.differ.1.symm
  · exact absurd e (hs.new_list.2 r h).1

include hs in
theorem rest_only {r : Production T} (hr : r ∈ separated eps list rest sep a ps) (e : r.input = rest) :
    r = ⟨rest, [sep, a, rest]⟩ ∨ r = ⟨rest, [eps]⟩ := by
  rcases mem_iff.1 hr with rfl | h | h | h
  · exact absurd e hs.differ.1
  · exact .inl h
  · exact .inr h
  · exact absurd e (hs.new_rest.2 r h).1

include hs in
theorem expands_rest {w : List T} : Expands eps (separated eps list rest sep a ps) rest w ↔
    ∃ l : List (List T), w = (l.map (sep :: ·)).flatten ∧
      ∀ u ∈ l, Expands eps (separated eps list rest sep a ps) a u := by
  constructor
  · intro h
    refine Expands.rec (eps := eps) (ps := separated eps list rest sep a ps)
      (motive_1 := fun x w _ => x = rest → ∃ l : List (List T), w = (l.map (sep :: ·)).flatten ∧
        ∀ u ∈ l, Expands eps (separated eps list rest sep a ps) a u)
      (motive_2 := fun xs w _ =>
        (xs = [sep, a, rest] → ∃ u, ∃ l : List (List T), w = sep :: u ++ (l.map (sep :: ·)).flatten ∧
          Expands eps (separated eps list rest sep a ps) a u ∧
          ∀ u ∈ l, Expands eps (separated eps list rest sep a ps) a u) ∧
        (xs = [a, rest] → ∃ u, ∃ l : List (List T), w = u ++ (l.map (sep :: ·)).flatten ∧
          Expands eps (separated eps list rest sep a ps) a u ∧
          ∀ u ∈ l, Expands eps (separated eps list rest sep a ps) a u) ∧
        (xs = [rest] → ∃ l : List (List T), w = (l.map (sep :: ·)).flatten ∧
          ∀ u ∈ l, Expands eps (separated eps list rest sep a ps) a u)) ?_ ?_ ?_ ?_ h rfl
    · rintro x h1 _ rfl
      exact absurd (isNonTerminal_iff.2 (.inr (.inl rfl))) h1
    · intro p w hp h1 ih e
      rcases rest_only hs hp e with rfl | rfl
      · obtain ⟨u, l, rfl, k1, k2⟩ := ih.1 (rhs2 hs)
        exact ⟨u :: l, by simp, fun v hv => by
          rcases List.mem_cons.1 hv with rfl | hv
          · exact k1
          · exact k2 v hv⟩
      · rw [rhs3] at h1
        cases h1
        exact ⟨[], by simp, by simp⟩
    · simp
    · intro x xs w w' h1 h2 ih1 ih2
      refine ⟨fun hx => ?_, fun hx => ?_, fun hx => ?_⟩
      · simp only [List.cons.injEq] at hx
        obtain ⟨rfl, rfl⟩ := hx
        obtain ⟨u, l, rfl, k1, k2⟩ := ih2.2.1 rfl
        refine ⟨u, l, ?_, k1, k2⟩
        rw [h1.terminal (sep_terminal hs)]
        simp
      · simp only [List.cons.injEq] at hx
        obtain ⟨rfl, rfl⟩ := hx
        obtain ⟨l, rfl, k⟩ := ih2.2.2 rfl
        exact ⟨w, l, rfl, h1, k⟩
      · simp only [List.cons.injEq] at hx
        obtain ⟨rfl, rfl⟩ := hx
        cases h2
        obtain ⟨l, rfl, k⟩ := ih1 rfl
        exact ⟨l, by simp, k⟩
  · rintro ⟨l, rfl, hl⟩
    induction l with
    | nil =>
      refine .node ⟨rest, [eps]⟩ _ mem3 ?_
      rw [rhs3]
      exact .nil
    | cons u l ih =>
      refine .node ⟨rest, [sep, a, rest]⟩ _ mem2 ?_
      rw [rhs2 hs]
      have := ExpandsAll.cons sep [a, rest] [sep] _ (.leaf sep (sep_terminal hs (a := a)) hs.new_sep.1)
        (.cons a [rest] u _ (hl u (by simp)) (ExpandsAll.single.2 (ih fun v hv => hl v (by simp [hv]))))
      simpa using this

include hs ha in
theorem sentence_iff {w : List T} : Sentence eps list (separated eps list rest sep a ps) w ↔
    ∃ (u : List T) (l : List (List T)), w = u ++ (l.map (sep :: ·)).flatten ∧ Sentence eps a ps u ∧
      ∀ v ∈ l, Sentence eps a ps v := by
  have hnl : IsNonTerminal (separated eps list rest sep a ps) list := isNonTerminal_iff.2 (.inl rfl)
  have hE : ∀ u, Expands eps (separated eps list rest sep a ps) a u ↔ Sentence eps a ps u := by
    intro u
    rw [← (embeds hs (a := a)).sentence ha, sentence_iff_expands (isNonTerminal_iff.2 (.inr (.inr ha)))]
  simp only [← hE]
  rw [sentence_iff_expands hnl]
  constructor
  · intro h
    rcases h.inv with h | ⟨q, hq, hx, hw⟩
    · exact absurd hnl h
    · rw [list_only hs hq hx, rhs1 hs] at hw
      cases hw with
      | cons _ _ u v k1 k2 =>
        obtain ⟨l, rfl, k3⟩ := (expands_rest hs).1 (ExpandsAll.single.1 k2)
        exact ⟨u, l, rfl, k1, k3⟩
  · rintro ⟨u, l, rfl, k1, k2⟩
    refine .node ⟨list, [a, rest]⟩ _ mem1 ?_
    rw [rhs1 hs]
    exact .cons a [rest] u _ k1 (ExpandsAll.single.2 ((expands_rest hs).2 ⟨l, rfl, k2⟩))

/-- The trees of the rest. -/
theorem tree_rest_mk (hs : Separators eps ps list rest sep) (ha : IsNonTerminal ps a)
    {l : List (Token L T × List (Token L T) × Node L T)}
    (hl : ∀ x ∈ l, x.1.tType = sep ∧ IsTree eps ps a x.2.1 x.2.2) :
    IsTree eps (separated eps list rest sep a ps) rest (l.map fun x => x.1 :: x.2.1).flatten
      (restTree eps rest (l.map fun x => (x.1, x.2.2))) := by
  have E := embeds hs (a := a)
  induction l with
  | nil =>
    refine .node ⟨rest, [eps]⟩ _ _ mem3 ?_
    exact .cons eps [] [] [] _ [] .eps .nil
  | cons x l ih =>
    obtain ⟨e, hx⟩ := hl x (by simp)
    have k0 : IsTree (L := L) eps (separated eps list rest sep a ps) sep [x.1] (.mk [] x.1) :=
      e ▸ .leaf x.1 (e ▸ sep_terminal hs) (e ▸ hs.new_sep.1)
    have k2 := IsForest.cons rest [] _ [] _ [] (ih fun y hy => hl y (by simp [hy])) .nil
    have := IsTree.node ⟨rest, [sep, a, rest]⟩ _ _ mem2
      (IsForest.cons sep [a, rest] _ _ _ _ k0 (.cons a [rest] _ _ _ _ (E.tree_mono hx (E.old_nt ha)) k2))
    simpa [restTree] using this

theorem tree_mk (hs : Separators eps ps list rest sep) (ha : IsNonTerminal ps a)
    {u : List (Token L T)} {n : Node L T} (hn : IsTree eps ps a u n)
    {l : List (Token L T × List (Token L T) × Node L T)}
    (hl : ∀ x ∈ l, x.1.tType = sep ∧ IsTree eps ps a x.2.1 x.2.2) :
    IsTree eps (separated eps list rest sep a ps) list (u ++ (l.map fun x => x.1 :: x.2.1).flatten)
      (listTree eps list rest n (l.map fun x => (x.1, x.2.2))) := by
  have E := embeds hs (a := a)
  have k2 := IsForest.cons rest [] _ [] _ [] (tree_rest_mk hs ha hl) .nil
  have := IsTree.node ⟨list, [a, rest]⟩ _ _ mem1 (IsForest.cons a [rest] _ _ _ _ (E.tree_mono hn (E.old_nt ha)) k2)
  simpa [listTree] using this

include hs ha in
theorem notLeftRecursive : NotLeftRecursive eps (separated eps list rest sep a ps) ↔ NotLeftRecursive eps ps := by
  have E := embeds hs (a := a)
  refine ⟨E.notLeftRec, fun k x v h => ?_⟩
  obtain ⟨m, hst, hd⟩ := id h
  obtain ⟨q, hq, rfl, rfl⟩ := Step.single hst
  rcases mem_iff.1 hq with rfl | rfl | rfl | hq
  · rw [rhs1 hs] at hd
    simp only at hd
    have hno : ∀ {l m : List T}, Derives eps (separated eps list rest sep a ps) l m → list ∉ l → list ∉ m := by
      intro l m hd hl
      intro hc
      rcases mem_output_of_derives hd hc with h | ⟨r, hr, hy⟩
      · exact hl h
      rcases mem_iff.1 hr with rfl | rfl | rfl | hr
      · simp only [List.mem_cons, List.not_mem_nil, or_false] at hy
        exact hy.elim (ne hs ha).1.symm hs.differ.1
      · simp only [List.mem_cons, List.not_mem_nil, or_false] at hy
        exact hy.elim hs.differ.2.1 fun hy => hy.elim (ne hs ha).1.symm hs.differ.1
      · simp only [List.mem_cons, List.not_mem_nil, or_false] at hy
        exact hs.new_list.1 hy
      · exact (hs.new_list.2 r hr).2 hy
    refine hno hd ?_ (by simp)
    simp only [List.mem_cons, List.not_mem_nil, or_false, not_or]
    exact ⟨(ne hs ha).1.symm, hs.differ.1⟩
  · rw [rhs2 hs] at hd
    obtain ⟨c1, c2, e, k1, -⟩ := Derives.cons_split hd
    rw [Derives.terminal_eq (sep_terminal hs) k1] at e
    simp only [List.cons_append, List.cons.injEq] at e
    exact hs.differ.2.2 e.1
  · rw [rhs3] at hd
    exact absurd hd.nil_eq (by simp)
  · exact k _ v (E.leftRec (E.old_nt ⟨q, hq, rfl⟩) h)

include hs ha in
theorem noAdjacentRepeat : NoAdjacentRepeat (separated eps list rest sep a ps) ↔ NoAdjacentRepeat ps := by
  have E := embeds hs (a := a)
  obtain ⟨d1, d2, d3⟩ := ne hs ha
  constructor
  · exact fun h p hp u x v e hx => h p (mem_iff.2 (.inr (.inr (.inr hp)))) u x v e
      (isNonTerminal_iff.2 (.inr (.inr hx)))
  · have h2 : ∀ u v x, [a, rest] ≠ u ++ x :: x :: v := by
      intro u v x e
      rcases occ_cons e with ⟨h, -, e2⟩ | ⟨u', -, e2⟩
      · simp only [List.cons.injEq] at e2
        exact d2 (h.trans e2.1)
      · have := occ_one e2
        simp at this
    intro k p hp u x v e hx
    rcases mem_iff.1 hp with rfl | rfl | rfl | hp
    · exact h2 u v x e
    · rcases occ_cons e with ⟨h, -, e2⟩ | ⟨u', -, e2⟩
      · simp only [List.cons.injEq] at e2
        exact d3 (e2.1.symm.trans h.symm)
      · exact h2 u' v x e2
    · have := occ_one e
      simp at this
    · exact k p hp u x v e ((E.isNonTerminal (E.old_output hp (by rw [e]; simp))).1 hx)

section
variable {start stop : T} (hf : Fresh eps (separated eps list rest sep a ps) start stop)
include hs ha hf

theorem sep_terminal' : IsTerminal (augment list start stop (separated eps list rest sep a ps)) sep := by
  refine ⟨⟨_, mem_augment.2 (.inr mem2), by simp⟩, ?_⟩
  rintro ⟨r, hr, e⟩
  rcases mem_augment.1 hr with rfl | hr
  · exact (hf.start_unused _ mem2).2 (by simp [← e])
  · exact sep_terminal hs ⟨r, hr, e⟩

theorem start_rest {c : T} : StrFirst eps (augment list start stop (separated eps list rest sep a ps)) [rest] c ↔
    c = sep := by
  have hst := sep_terminal' hs ha hf
  have hm2 : (⟨rest, [sep, a, rest]⟩ : Production T) ∈ augment list start stop (separated eps list rest sep a ps) :=
    mem_augment.2 (.inr mem2)
  constructor
  · rintro ⟨w, y, v, e, _, ⟨ho, hn⟩, _, v', hd⟩
    obtain ⟨rfl, rfl, rfl⟩ := occ_one e
    cases hd with
    | refl => exact absurd ⟨_, hm2, rfl⟩ hn
    | step hs' hd =>
      obtain ⟨q, hq, hqr, rfl⟩ := Step.single hs'
      have hq' : q ∈ separated eps list rest sep a ps := by
        rcases mem_augment.1 hq with rfl | hq
        · exact absurd hqr.symm (hf.start_unused _ mem2).1
        · exact hq
      rcases rest_only hs hq' hqr with rfl | rfl
      · rw [rhs2 hs] at hd
        obtain ⟨c1, c2, e, k1, -⟩ := Derives.cons_split hd
        rw [Derives.terminal_eq hst.2 k1] at e
        simp only [List.cons_append, List.cons.injEq] at e
        exact e.1
      · rw [rhs3] at hd
        exact absurd hd.nil_eq (by simp)
  · rintro rfl
    refine ⟨[], rest, [], rfl, strNullable_nil, hst, hs.new_sep.1, [a, rest], ?_⟩
    have := Derives.of_production (eps := eps) hm2
    rwa [rhs2 hs] at this

theorem rest_nullable : StrNullable eps (augment list start stop (separated eps list rest sep a ps)) [rest] := by
  intro y hy
  rw [List.mem_singleton.1 hy]
  have := Derives.of_production (eps := eps)
    (mem_augment.2 (.inr mem3) : (⟨rest, [eps]⟩ : Production T) ∈ augment list start stop (separated eps list rest sep a ps))
  rwa [rhs3] at this

theorem follow_list {c : T} (h : FollowRule eps (augment list start stop (separated eps list rest sep a ps)) list c) :
    c = stop := by
  refine followRule_initial hf ?_ (hf.stop_unused _ mem1).1 h
  intro r hr hy
  rcases mem_iff.1 hr with rfl | rfl | rfl | hr
  · simp only [List.mem_cons, List.not_mem_nil, or_false] at hy
    exact hy.elim (ne hs ha).1.symm hs.differ.1
  · simp only [List.mem_cons, List.not_mem_nil, or_false] at hy
    exact hy.elim hs.differ.2.1 fun hy => hy.elim (ne hs ha).1.symm hs.differ.1
  · simp only [List.mem_cons, List.not_mem_nil, or_false] at hy
    exact hs.new_list.1 hy
  · exact (hs.new_list.2 r hr).2 hy

theorem follow_rest {c : T} (h : FollowRule eps (augment list start stop (separated eps list rest sep a ps)) rest c) :
    c = stop := by
  have hr0 : rhs eps (⟨start, [list, stop]⟩ : Production T) = [list, stop] :=
    rhs_of_mem (x := stop) (by simp) hf.stop_ne_eps
  suffices key : ∀ x c, FollowRule eps (augment list start stop (separated eps list rest sep a ps)) x c → rest = x → c = stop from
    key _ _ h rfl
  clear h c
  intro x c h
  induction h with
  | @first q u t x c hp hr _ ht hc =>
    rintro e
    rw [← e] at hr
    rcases mem_augment.1 hp with rfl | hp
    · rw [hr0] at hr
      rcases occ_cons hr with ⟨h, -, -⟩ | ⟨u', rfl, hr2⟩
      · exact absurd h hs.differ.1
      · exact absurd (occ_one hr2).1 (hf.stop_unused _ mem2).1.symm
    · rcases mem_iff.1 hp with rfl | rfl | rfl | hp
      · rw [rhs1 hs] at hr
        rcases occ_cons hr with ⟨h, -, -⟩ | ⟨u', rfl, hr2⟩
        · exact absurd h (ne hs ha).2.1
        · rw [(occ_one hr2).2.2] at hc
          exact absurd hc not_strFirst_nil
      · rw [rhs2 hs] at hr
        rcases occ_cons hr with ⟨h, -, -⟩ | ⟨u', rfl, hr2⟩
        · exact absurd h hs.differ.2.2.symm
        · rcases occ_cons hr2 with ⟨h, -, -⟩ | ⟨u', rfl, hr3⟩
          · exact absurd h (ne hs ha).2.1
          · rw [(occ_one hr3).2.2] at hc
            exact absurd hc not_strFirst_nil
      · rw [rhs3] at hr
        simp at hr
      · exact absurd (output_of_rhs hr ▸ by simp) (hs.new_rest.2 q hp).2
  | @last q u t x c hp hr _ ht hf' ih =>
    rintro e
    rw [← e] at hr
    rcases mem_augment.1 hp with rfl | hp
    · rw [hr0] at hr
      rcases occ_cons hr with ⟨h, -, -⟩ | ⟨u', rfl, hr2⟩
      · exact absurd h hs.differ.1
      · exact absurd (occ_one hr2).1 (hf.stop_unused _ mem2).1.symm
    · rcases mem_iff.1 hp with rfl | rfl | rfl | hp
      · exact follow_list hs ha hf hf'
      · exact ih rfl
      · rw [rhs3] at hr
        simp at hr
      · exact absurd (output_of_rhs hr ▸ by simp) (hs.new_rest.2 q hp).2

theorem context (h1 : WellFormed eps ps) :
    Context eps a (fun c => c = sep ∨ c = stop) ps (augment list start stop (separated eps list rest sep a ps)) := by
  have hstop := hf.stop_terminal (init := list)
  have hst := sep_terminal' hs ha hf
  obtain ⟨d1, d2, d3⟩ := ne hs ha
  have hr0 : rhs eps (⟨start, [list, stop]⟩ : Production T) = [list, stop] :=
    rhs_of_mem (x := stop) (by simp) hf.stop_ne_eps
  have hnlist : ¬ IsNonTerminal ps list := fun ⟨p, hp, e⟩ => (hs.new_list.2 p hp).1 e
  have hna : IsNonTerminal (augment list start stop (separated eps list rest sep a ps)) a := by
    obtain ⟨p, hp, e⟩ := ha
    exact ⟨p, mem_augment.2 (.inr ((embeds hs).sub p hp)), e⟩
  have hocc : ∀ r ∈ augment list start stop (separated eps list rest sep a ps), r ∉ ps →
      ∀ u t, rhs eps r = u ++ a :: t → t = [rest] ∧ (r.input = list ∨ r.input = rest) := by
    have h2 : ∀ u t, [a, rest] = u ++ a :: t → t = [rest] := by
      intro u t e
      rcases occ_cons e with ⟨-, -, h⟩ | ⟨u', -, e2⟩
      · exact h
      · exact absurd (occ_one e2).1.symm d2
    intro r hr hnr u t e
    rcases mem_augment.1 hr with rfl | hr
    · rw [hr0] at e
      rcases occ_cons e with ⟨h, -, -⟩ | ⟨u', rfl, e2⟩
      · exact absurd h.symm d1
      · exact absurd (occ_one e2).1 (fun e => hstop (e ▸ hna))
    · rcases mem_iff.1 hr with rfl | rfl | rfl | hr
      · rw [rhs1 hs] at e
        exact ⟨h2 u t e, .inl rfl⟩
      · rw [rhs2 hs] at e
        rcases occ_cons e with ⟨h, -, -⟩ | ⟨u', -, e2⟩
        · exact absurd h.symm d3
        · exact ⟨h2 u' t e2, .inr rfl⟩
      · rw [rhs3] at e
        simp at e
      · exact absurd hr hnr
  refine { toEmbeds := (embeds hs).augment hf, uses := ?_, nt := ha, into := ?_, first := ?_, last := ?_ }
  · refine Embeds.Uses.augment (embeds hs) hf ?_ fun h => absurd h hnlist
    intro r hr
    rcases mem_iff.1 hr with rfl | rfl | rfl | hr
    · refine .inr fun y hy ⟨p, hp, e⟩ => ?_
      simp only [List.mem_cons, List.not_mem_nil, or_false] at hy
      exact hy.elim id fun h => absurd (e.trans h) (hs.new_rest.2 p hp).1
    · refine .inr fun y hy ⟨p, hp, e⟩ => ?_
      simp only [List.mem_cons, List.not_mem_nil, or_false] at hy
      rcases hy with h | h | h
      · exact absurd (e.trans h) (hs.new_sep.2 p hp).1
      · exact h
      · exact absurd (e.trans h) (hs.new_rest.2 p hp).1
    · refine .inr fun y hy ⟨p, hp, e⟩ => ?_
      simp only [List.mem_cons, List.not_mem_nil, or_false] at hy
      exact absurd (e.trans hy) (h1 p hp).1
    · exact .inl hr
  · rintro c (rfl | rfl)
    · exact .first (p := ⟨list, [a, rest]⟩) (u := []) (t := [rest]) (mem_augment.2 (.inr mem1)) (rhs1 hs) hna
        (by simpa using d2.symm) ((start_rest hs ha hf).2 rfl)
    · exact .last (p := ⟨list, [a, rest]⟩) (u := []) (t := [rest]) (mem_augment.2 (.inr mem1)) (rhs1 hs) hna
        (rest_nullable hs ha hf) (followRule_stop hf (isNonTerminal_iff.2 (.inl rfl)))
  · intro r hr hnr u t e _ c hc
    rw [(hocc r hr hnr u t e).1] at hc
    exact .inl ((start_rest hs ha hf).1 hc)
  · intro r hr hnr u t e _ c hc
    rcases (hocc r hr hnr u t e).2 with h | h
    · exact .inr (follow_list hs ha hf (h ▸ hc))
    · exact .inr (follow_rest hs ha hf (h ▸ hc))

end

end Sep

end Verif
