import Verif.Proof.Occurs
import Verif.Proof.LL1
import Verif.Spec.Reduced
import Verif.Spec.TreeMeasure
import Mathlib.Data.Fintype.Pigeonhole
import Mathlib.Data.Finset.Prod

/-! # Trees that contain a node again and again where it begins -/

set_option linter.unusedSectionVars false

namespace Verif.Spec

variable {L T : Type} [DecidableEq T] {eps : T} {ps : List (Production T)}

theorem Occurs.append_left {a : List (Node L T)} {i j : Nat} {m : Node L T} (h : Occurs eps a i m j)
    (b : List (Node L T)) : Occurs eps (a ++ b) i m j := by
  induction h with
  | here n ns i => exact .here _ _ _
  | behind n ns i m j _ ih => exact .behind _ _ _ _ _ ih
  | inside cs t ns i m j h _ => exact .inside _ _ _ _ _ _ h

theorem Occurs.append_right {a b : List (Node L T)} {i j : Nat} {m : Node L T}
    (h : Occurs eps b (i + (leavesList eps a).length) m j) : Occurs eps (a ++ b) i m j := by
  induction a generalizing i with
  | nil => simpa [leavesList] using h
  | cons n a ih =>
    refine .behind _ _ _ _ _ (ih ?_)
    rw [leavesList, List.length_append] at h
    rwa [Nat.add_assoc]

theorem Occurs.append_cases {a b : List (Node L T)} {i j : Nat} {m : Node L T}
    (h : Occurs eps (a ++ b) i m j) :
    Occurs eps a i m j ∨ Occurs eps b (i + (leavesList eps a).length) m j := by
  induction a generalizing i with
  | nil => exact .inr (by simpa [leavesList] using h)
  | cons n a ih =>
    cases h with
    | here => exact .inl (.here _ _ _)
    | behind _ _ _ _ _ h =>
      rcases ih h with h | h
      · exact .inl (.behind _ _ _ _ _ h)
      · refine .inr ?_
        rw [leavesList, List.length_append, ← Nat.add_assoc]
        exact h
    | inside cs t _ _ _ _ h => exact .inl (.inside _ _ _ _ _ _ h)

theorem Occurs.trans {ns : List (Node L T)} {i j k : Nat} {n m : Node L T} (h : Occurs eps ns i n j)
    (h' : Occurs eps n.childNodes j m k) : Occurs eps ns i m k := by
  induction h with
  | here n ns i => cases n; exact .inside _ _ _ _ _ _ h'
  | behind n ns i m j _ ih => exact .behind _ _ _ _ _ (ih h')
  | inside cs t ns i m j _ ih => exact .inside _ _ _ _ _ _ (ih h')

theorem forest_split' {xs ys : List T} {w : List (Token L T)} {ns : List (Node L T)}
    (h : IsForest eps ps (xs ++ ys) w ns) : ∃ w1 w2 n1 n2, w = w1 ++ w2 ∧ ns = n1 ++ n2 ∧
      IsForest eps ps xs w1 n1 ∧ IsForest eps ps ys w2 n2 := by
  induction xs generalizing w ns with
  | nil => exact ⟨[], w, [], ns, rfl, rfl, .nil, h⟩
  | cons x xs ih =>
    cases h with
    | cons _ _ w1 w2 n ns h1 h2 =>
      obtain ⟨v1, v2, n1, n2, rfl, rfl, h3, h4⟩ := ih h2
      exact ⟨w1 ++ v1, v2, n :: n1, n2, by simp, rfl, .cons _ _ _ _ _ _ h1 h3, h4⟩

/-- A production turns a forest of its right-hand side into a tree that contains it. -/
theorem tree_of_rhs {q : Production T} (hq : q ∈ ps) {w : List (Token L T)} {ns : List (Node L T)}
    (hf : IsForest eps ps (rhs eps q) w ns) : ∃ cs, IsTree eps ps q.input w (.mk cs ⟨none, q.input⟩) ∧
      ∀ i m j, Occurs eps ns i m j → Occurs eps cs i m j := by
  unfold rhs at hf
  split at hf
  · rename_i ho
    cases hf
    refine ⟨_, .node q _ _ hq (by rw [ho]; exact IsForest.single .eps), ?_⟩
    intro i m j h
    cases h
  · exact ⟨ns, .node q _ _ hq hf, fun _ _ _ h => h⟩

/-- Before a derivation step there is a forest that contains the one behind it. -/
theorem forest_of_step (hw : WellFormed eps ps) {a b : List T} (h : Step eps ps a b)
    {w : List (Token L T)} {ns : List (Node L T)} (hf : IsForest eps ps b w ns) :
    ∃ ns', IsForest eps ps a w ns' ∧ ∀ i m j, Occurs eps ns i m j → Occurs eps ns' i m j := by
  cases h with
  | mk u v q hq =>
    obtain ⟨w1, w2, n1, n2, rfl, rfl, h1, h2⟩ := forest_split' hf
    obtain ⟨w3, w4, n3, n4, rfl, rfl, h3, h4⟩ := forest_split' h1
    obtain ⟨cs, h5, h6⟩ := tree_of_rhs hq h4
    refine ⟨n3 ++ .mk cs ⟨none, q.input⟩ :: n2, ?_, ?_⟩
    · have := h3.append (.cons _ _ _ _ _ _ h5 h2)
      simpa using this
    · intro i m j ho
      rcases ho.append_cases with ho | ho
      · rcases ho.append_cases with ho | ho
        · exact ho.append_left _
        · exact .append_right (.inside _ _ _ _ _ _ (h6 _ _ _ ho))
      · refine .append_right (.behind _ _ _ _ _ ?_)
        rw [isForest_leaves hw h1, List.length_append, ← Nat.add_assoc] at ho
        rw [isForest_leaves hw h3, isTree_leaves hw h5]
        exact ho

theorem forest_of_derivation (hw : WellFormed eps ps) {a b : List T} (h : Derives eps ps a b)
    {w : List (Token L T)} {ns : List (Node L T)} (hf : IsForest eps ps b w ns) :
    ∃ ns', IsForest eps ps a w ns' ∧ ∀ i m j, Occurs eps ns i m j → Occurs eps ns' i m j := by
  induction h with
  | refl => exact ⟨ns, hf, fun _ _ _ h => h⟩
  | step hs _ ih =>
    obtain ⟨ns', h1, h2⟩ := ih hf
    obtain ⟨ns'', h3, h4⟩ := forest_of_step hw hs h1
    exact ⟨ns'', h3, fun _ _ _ h => h4 _ _ _ (h2 _ _ _ h)⟩

/-- Behind at least one step the forest is below the root. -/
theorem tree_of_derivesPlus (hw : WellFormed eps ps) {x : T} {b : List T} (h : DerivesPlus eps ps [x] b)
    {w : List (Token L T)} {ns : List (Node L T)} (hf : IsForest eps ps b w ns) :
    ∃ n, IsTree eps ps x w n ∧ ∀ i m j, Occurs eps ns i m j → Occurs eps n.childNodes i m j := by
  obtain ⟨c, hs, hd⟩ := h
  obtain ⟨ns', h1, h2⟩ := forest_of_derivation hw hd hf
  generalize hx : [x] = l at hs
  cases hs with
  | mk u v q hq =>
    cases u with
    | cons y u => simp at hx
    | nil =>
      simp only [List.nil_append, List.cons.injEq] at hx
      obtain ⟨rfl, rfl⟩ := hx
      simp only [List.nil_append, List.append_nil] at h1
      obtain ⟨cs, h3, h4⟩ := tree_of_rhs hq h1
      exact ⟨_, h3, fun _ _ _ h => h4 _ _ _ (h2 _ _ _ h)⟩

/-- In a reduced grammar every symbol has a tree. -/
theorem exists_tree (L : Type) {init : T} (hred : Reduced eps init ps) (x : T) :
    ∃ (w : List (Token L T)) (n : Node L T), IsTree eps ps x w n := by
  by_cases hx : IsNonTerminal ps x
  · obtain ⟨_, w, h1, h2⟩ := hred x hx
    obtain ⟨ns, hns⟩ := Parser.forest_of_derives (L := L) h1 (w.map fun a => ⟨none, a⟩) (by simp [Function.comp_def])
      (by
        intro t ht
        obtain ⟨a, ha, rfl⟩ := List.mem_map.1 ht
        exact ⟨(h2 a ha).1.2, (h2 a ha).2⟩)
    generalize (w.map fun a => (⟨none, a⟩ : Token L T)) = w' at hns
    cases hns with
    | cons _ _ w1 w2 n ns h1 h2 => exact ⟨w1, n, h1⟩
  · by_cases he : x = eps
    · subst he
      exact ⟨_, _, .eps⟩
    · exact ⟨_, _, .leaf ⟨none, x⟩ hx he⟩

theorem exists_forest (L : Type) {init : T} (hred : Reduced eps init ps) (xs : List T) :
    ∃ (w : List (Token L T)) (ns : List (Node L T)), IsForest eps ps xs w ns := by
  induction xs with
  | nil => exact ⟨_, _, .nil⟩
  | cons x xs ih =>
    obtain ⟨w, n, h⟩ := exists_tree L hred x
    obtain ⟨w', ns, h'⟩ := ih
    exact ⟨_, _, .cons _ _ _ _ _ _ h h'⟩

/-- For a left-recursive symbol there are trees, each of which begins with the one before it. -/
theorem exists_pump (L : Type) (hw : WellFormed eps ps) {init : T} (hred : Reduced eps init ps) {x : T}
    {v : List T} (h : DerivesPlus eps ps [x] (x :: v)) :
    ∃ f : Nat → Node L T, (∀ k, ∃ w, IsTree eps ps x w (f k)) ∧
      ∀ k i, Occurs eps (f (k + 1)).childNodes i (f k) i := by
  have step : ∀ n : {n : Node L T // ∃ w, IsTree eps ps x w n},
      ∃ n' : {n : Node L T // ∃ w, IsTree eps ps x w n}, ∀ i, Occurs eps n'.1.childNodes i n.1 i := by
    rintro ⟨n, w, hn⟩
    obtain ⟨w', ns, hns⟩ := exists_forest L hred v
    obtain ⟨n', h1, h2⟩ := tree_of_derivesPlus hw h (.cons _ _ _ _ _ _ hn hns)
    exact ⟨⟨n', _, h1⟩, fun i => h2 i n i (.here _ _ _)⟩
  choose g hg using step
  obtain ⟨w, n, hn⟩ := exists_tree L hred x
  refine ⟨fun k => (g^[k] ⟨n, w, hn⟩).1, fun k => (g^[k] ⟨n, w, hn⟩).2, fun k i => ?_⟩
  simp only [Function.iterate_succ_apply']
  exact hg _ i

/-- For a left-recursive grammar there is a tree in which a node occurs below a node that begins at the
same position and has children of the same types. -/
theorem exists_repeat (L : Type) (hw : WellFormed eps ps) {init : T} (hred : Reduced eps init ps)
    (hlr : ¬ NotLeftRecursive eps ps) :
    ∃ (w : List (Token L T)) (root n m : Node L T) (j : Nat), IsTree eps ps init w root ∧
      Occurs eps [root] 0 n j ∧ Occurs eps n.childNodes j m j ∧ m.childNodes ≠ [] ∧
      childTypes n = childTypes m := by
  simp only [NotLeftRecursive, not_forall, not_not] at hlr
  obtain ⟨x, v, hd⟩ := hlr
  have hx : IsNonTerminal ps x := by
    obtain ⟨b, hs, _⟩ := hd
    generalize hl : [x] = l at hs
    cases hs with
    | mk u v q hq =>
      cases u with
      | cons y u => simp at hl
      | nil => simp at hl; exact ⟨q, hq, hl.1.symm⟩
  have hxe : x ≠ eps := by
    rintro rfl
    obtain ⟨q, hq, e⟩ := hx
    exact (hw q hq).1 e
  obtain ⟨f, hf, hocc⟩ := exists_pump L hw hred hd
  have hocc' : ∀ a b i, b < a → Occurs eps (f a).childNodes i (f b) i := by
    intro a b i hab
    induction a with
    | zero => omega
    | succ a ih =>
      rcases Nat.lt_or_ge b a with h | h
      · exact (hocc a i).trans (ih h)
      · have : b = a := by omega
        subst this
        exact hocc b i
  have hmem : ∀ k, childTypes (f k) ∈ ps.map (·.output) ∧ (f k).childNodes ≠ [] := by
    intro k
    obtain ⟨w, h⟩ := hf k
    generalize hn : f k = n at h
    cases h with
    | leaf t h1 => exact absurd hx h1
    | eps => exact absurd rfl hxe
    | node q w ns hq h =>
      have := forest_types h
      refine ⟨List.mem_map.2 ⟨q, hq, this.symm⟩, ?_⟩
      intro hc
      have hns : ns = [] := hc
      subst hns
      exact (hw q hq).2.1 (by simpa using this.symm)
  obtain ⟨a, b, hab, e⟩ : ∃ a b, a < b ∧ childTypes (f a) = childTypes (f b) := by
    have hfin : Set.Finite {o : List T | o ∈ ps.map (·.output)} := List.finite_toSet _
    exact Set.Finite.exists_lt_map_eq_of_forall_mem (fun k => (hmem k).1) hfin
  obtain ⟨u, v', hreach⟩ := (hred x hx).1
  obtain ⟨wu, nu, hu⟩ := exists_forest L hred u
  obtain ⟨wv, nv, hv⟩ := exists_forest L hred v'
  obtain ⟨wb, hb⟩ := hf b
  obtain ⟨ns', h1, h2⟩ := forest_of_derivation hw hreach (hu.append (.cons _ _ _ _ _ _ hb hv))
  have ho : Occurs eps (nu ++ f b :: nv) 0 (f b) (0 + (leavesList eps nu).length) :=
    .append_right (.here _ _ _)
  generalize wu ++ (wb ++ wv) = w' at h1
  cases h1 with
  | cons _ _ w1 w2 root rest h3 h4 =>
    cases h4
    exact ⟨w1, root, f b, f a, _, h3, h2 _ _ _ ho, hocc' b a _ hab, (hmem a).2, e.symm⟩

mutual
/-- If no node repeats the children of a node above it that begins at the same position, the height is
bounded by the number of pairs of children and position. -/
theorem height_le_of_no_repeat {V : Finset (List T × Nat)} (n : Node L T) (j : Nat) (F : Finset (List T × Nat))
    (hmem : ∀ m i, Occurs eps [n] j m i → m.childNodes ≠ [] → (childTypes m, i) ∈ V)
    (hnr : ∀ a b i, Occurs eps [n] j a i → Occurs eps a.childNodes i b i → b.childNodes ≠ [] →
      childTypes a ≠ childTypes b)
    (hFV : F ⊆ V) (hF : ∀ m i, Occurs eps [n] j m i → m.childNodes ≠ [] → (childTypes m, i) ∉ F) :
    height n + F.card ≤ V.card := by
  match n with
  | .mk [] t => simpa [height] using Finset.card_le_card hFV
  | .mk (c :: cs) t =>
    have h1 := hmem _ _ (.here _ _ _) (by simp [Node.childNodes])
    have h2 := hF _ _ (.here _ _ _) (by simp [Node.childNodes])
    have ih := heightList_le_of_no_repeat (V := V) (c :: cs) j
      (insert (childTypes (.mk (c :: cs) t : Node L T), j) F)
      (fun m i h => hmem m i (.inside _ _ _ _ _ _ h)) (fun a b i h => hnr a b i (.inside _ _ _ _ _ _ h))
      (Finset.insert_subset h1 hFV) (by
        intro m i h hm hc
        rcases Finset.mem_insert.1 hc with e | e
        · simp only [Prod.mk.injEq] at e
          obtain ⟨e, rfl⟩ := e
          exact hnr _ m i (.here _ _ _) h hm e.symm
        · exact hF m i (.inside _ _ _ _ _ _ h) hm e)
    rw [Finset.card_insert_of_notMem h2] at ih
    rw [heightList] at ih
    rw [height]
    omega
theorem heightList_le_of_no_repeat {V : Finset (List T × Nat)} (ns : List (Node L T)) (j : Nat)
    (F : Finset (List T × Nat))
    (hmem : ∀ m i, Occurs eps ns j m i → m.childNodes ≠ [] → (childTypes m, i) ∈ V)
    (hnr : ∀ a b i, Occurs eps ns j a i → Occurs eps a.childNodes i b i → b.childNodes ≠ [] →
      childTypes a ≠ childTypes b)
    (hFV : F ⊆ V) (hF : ∀ m i, Occurs eps ns j m i → m.childNodes ≠ [] → (childTypes m, i) ∉ F) :
    heightList ns + F.card ≤ V.card := by
  match ns with
  | [] => simpa [heightList] using Finset.card_le_card hFV
  | n :: ns =>
    have key : ∀ m i, Occurs eps [n] j m i → Occurs eps (n :: ns) j m i :=
      fun m i h => h.append_left ns
    have h1 := height_le_of_no_repeat (V := V) n j F (fun m i h => hmem m i (key m i h))
      (fun a b i h => hnr a b i (key a i h)) hFV (fun m i h => hF m i (key m i h))
    have h2 := heightList_le_of_no_repeat (V := V) ns (j + (leaves eps n).length) F
      (fun m i h => hmem m i (.behind _ _ _ _ _ h)) (fun a b i h => hnr a b i (.behind _ _ _ _ _ h)) hFV
      (fun m i h => hF m i (.behind _ _ _ _ _ h))
    rw [heightList]
    omega
end

/-- Nodes begin inside the leaves. -/
theorem Occurs.le {ns : List (Node L T)} {i j : Nat} {m : Node L T} (h : Occurs eps ns i m j) :
    j ≤ i + (leavesList eps ns).length := by
  induction h with
  | here n ns i => omega
  | behind n ns i m j _ ih => rw [leavesList, List.length_append]; omega
  | inside cs t ns i m j h ih =>
    cases cs with
    | nil => cases h
    | cons c cs =>
      rw [leavesList, List.length_append, leaves]
      rw [leavesList, List.length_append] at ih
      rw [List.length_append]
      omega

end Verif.Spec
