import Verif.Model.FirstFollow
import Verif.Proof.Basic

/-! # The convergence loop and `insert_many` -/

set_option linter.unusedSectionVars false

namespace Verif

namespace FirstFollow

/-- A loop whose rounds keep `Inv`, strictly increase the bounded measure `μ` when they report an
update and establish `Q` when they do not, stops in a state with `Inv` and `Q`. -/
theorem converge_spec {S : Type} (cb : S → Out (S × Bool)) (Inv Q : S → Prop) (μ : S → Nat) (B : Nat)
    (hB : ∀ s, Inv s → μ s ≤ B)
    (hstep : ∀ s, Inv s → ∃ s' u, cb s = .ok (s', u) ∧ Inv s' ∧ (u = true → μ s < μ s') ∧
      (u = false → Q s')) (s : S) (hs : Inv s) :
    ∃ r, Inv r ∧ Q r ∧ ∀ n, B - μ s < n → converge cb n s = .ok r := by
  generalize hk : B - μ s = k
  induction k using Nat.strongRecOn generalizing s with
  | ind k ih =>
    obtain ⟨s', u, hcb, hs', hu, hq⟩ := hstep s hs
    cases u with
    | false =>
      refine ⟨s', hs', hq rfl, ?_⟩
      intro n hn
      cases n with
      | zero => omega
      | succ n => simp [converge, hcb]
    | true =>
      have h1 := hu rfl
      have h2 := hB s' hs'
      obtain ⟨r, hr, hrq, hrn⟩ := ih (B - μ s') (by omega) s' hs' rfl
      refine ⟨r, hr, hrq, ?_⟩
      intro n hn
      cases n with
      | zero => omega
      | succ n =>
        simp only [converge, hcb, Out.bind_ok, if_true]
        exact hrn n (by omega)

theorem converge_mono {S : Type} {cb : S → Out (S × Bool)} {n m : Nat} (hnm : n ≤ m) {s r : S}
    (e : converge cb n s = .ok r) : converge cb m s = .ok r := by
  induction n generalizing m s with
  | zero => simp [converge] at e
  | succ n ih =>
    obtain ⟨m, rfl⟩ : ∃ k, m = k + 1 := ⟨m - 1, by omega⟩
    rw [converge, Out.bind_eq_ok] at e ⊢
    obtain ⟨a, h1, h2⟩ := e
    refine ⟨a, h1, ?_⟩
    by_cases ha : a.2 = true
    · rw [if_pos ha] at h2 ⊢
      exact ih (Nat.le_of_succ_le_succ hnm) h2
    · rw [if_neg ha] at h2 ⊢
      exact h2

variable {T : Type} [DecidableEq T]

theorem from_mono {h : HashOrder T} {g : Grammar T} {ff : FirstFollow T} {n m : Nat} (hnm : n ≤ m)
    (e : FirstFollow.from h n g = .ok ff) : FirstFollow.from h m g = .ok ff := by
  unfold FirstFollow.from at e ⊢
  rw [Out.bind_eq_ok] at e ⊢
  obtain ⟨a, h1, h2⟩ := e
  rw [Out.bind_eq_ok] at h2
  obtain ⟨b, h2, h3⟩ := h2
  refine ⟨a, converge_mono hnm h1, ?_⟩
  rw [Out.bind_eq_ok]
  exact ⟨b, converge_mono hnm h2, h3⟩

theorem returns_of_from {h : HashOrder T} {g : Grammar T} {ff : FirstFollow T} {n : Nat}
    (e : FirstFollow.from h n g = .ok ff) : Returns (fun n => FirstFollow.from h n g) ff :=
  ⟨n, fun _ hm => from_mono hm e⟩

theorem mem_insertMany (s l : List T) (x : T) : x ∈ (insertMany s l).1 ↔ x ∈ s ∨ x ∈ l := by
  induction l generalizing s with
  | nil => simp [insertMany]
  | cons y l ih => simp [insertMany, ih, mem_hsInsert, or_assoc]

theorem nodup_insertMany {s : List T} (l : List T) (h : s.Nodup) : (insertMany s l).1.Nodup := by
  induction l generalizing s with
  | nil => simpa [insertMany]
  | cons y l ih => simpa [insertMany] using ih (nodup_hsInsert y h)

/-- What a growing set and its "updated" flag have to satisfy. -/
structure Grows (s s' : List T) (u : Bool) : Prop where
  sub : ∀ x ∈ s, x ∈ s'
  same : u = false → s' = s
  more : u = true → s.length < s'.length

namespace Grows

theorem refl (s : List T) : Grows s s false := ⟨fun _ h => h, fun _ => rfl, by simp⟩

theorem le {s s' : List T} {u : Bool} (h : Grows s s' u) : s.length ≤ s'.length := by
  cases u with
  | false => rw [h.same rfl]; exact Nat.le_refl _
  | true => exact Nat.le_of_lt (h.more rfl)

theorem trans {s s' s'' : List T} {u u' : Bool} (h : Grows s s' u) (h' : Grows s' s'' u') :
    Grows s s'' (u || u') where
  sub x hx := h'.sub x (h.sub x hx)
  same e := by
    simp only [Bool.or_eq_false_iff] at e
    rw [h'.same e.2, h.same e.1]
  more e := by
    have h1 := h.le
    have h2 := h'.le
    simp only [Bool.or_eq_true] at e
    rcases e with e | e
    · have := h.more e; omega
    · have := h'.more e; omega

end Grows

theorem grows_hsInsert (s : List T) (x : T) : Grows s (hsInsert s x).1 (hsInsert s x).2 := by
  unfold hsInsert
  split
  · exact .refl s
  · exact ⟨fun y hy => by simp [hy], by simp, by simp⟩

theorem grows_insertMany (s l : List T) : Grows s (insertMany s l).1 (insertMany s l).2 := by
  induction l generalizing s with
  | nil => exact .refl s
  | cons y l ih => simpa [insertMany] using (grows_hsInsert s y).trans (ih _)

/-- The contents of a cell, empty when there is none. -/
def look (m : SymbolsMap T) (x : T) : List T := (m.get x).getD []

theorem look_insert (m : SymbolsMap T) (x y : T) (v : List T) :
    look (m.insert x v) y = if x = y then v else look m y := by
  unfold look
  rw [HMap.get_insert]
  split <;> simp

theorem look_of_get {m : SymbolsMap T} {x : T} {s : List T} (h : m.get x = some s) :
    look m x = s := by simp [look, h]

/-- Total size of the cells of `nts`. -/
def size (nts : List T) (m : SymbolsMap T) : Nat := (nts.map (fun x => (look m x).length)).sum

theorem size_le (nts : List T) {m m' : SymbolsMap T}
    (h : ∀ x, (look m x).length ≤ (look m' x).length) : size nts m ≤ size nts m' := by
  induction nts with
  | nil => simp [size]
  | cons x nts ih =>
    simp only [size, List.map_cons, List.sum_cons] at ih ⊢
    have := h x
    omega

theorem size_lt {nts : List T} {m m' : SymbolsMap T}
    (h : ∀ x, (look m x).length ≤ (look m' x).length) {x : T} (hx : x ∈ nts)
    (hlt : (look m x).length < (look m' x).length) : size nts m < size nts m' := by
  induction nts with
  | nil => simp at hx
  | cons y nts ih =>
    simp only [size, List.map_cons, List.sum_cons] at ih ⊢
    have h1 := h y
    have h2 := size_le nts h
    simp only [size] at h2
    rcases List.mem_cons.1 hx with rfl | hx
    · omega
    · have := ih hx; omega

theorem size_bound (nts : List T) (m : SymbolsMap T) (B : Nat)
    (h : ∀ x ∈ nts, (look m x).length ≤ B) : size nts m ≤ nts.length * B := by
  induction nts with
  | nil => simp [size]
  | cons y nts ih =>
    have h1 := h y (by simp)
    have h2 := ih (fun x hx => h x (by simp [hx]))
    simp only [size, List.map_cons, List.sum_cons, List.length_cons] at h2 ⊢
    rw [Nat.add_mul]
    omega

/-- A growing map and its "updated" flag. -/
structure MapGrows (nts : List T) (m m' : SymbolsMap T) (u : Bool) : Prop where
  dom : ∀ x, (m'.get x).isSome = (m.get x).isSome
  sub : ∀ x, ∀ a ∈ look m x, a ∈ look m' x
  le : ∀ x, (look m x).length ≤ (look m' x).length
  same : u = false → ∀ x, m'.get x = m.get x
  more : u = true → size nts m < size nts m'

namespace MapGrows

theorem refl (nts : List T) (m : SymbolsMap T) : MapGrows nts m m false :=
  ⟨fun _ => rfl, fun _ _ h => h, fun _ => Nat.le_refl _, fun _ _ => rfl, by simp⟩

theorem trans {nts : List T} {m m' m'' : SymbolsMap T} {u u' : Bool} (h : MapGrows nts m m' u)
    (h' : MapGrows nts m' m'' u') : MapGrows nts m m'' (u || u') where
  dom x := by rw [h'.dom, h.dom]
  sub x a ha := h'.sub x a (h.sub x a ha)
  le x := Nat.le_trans (h.le x) (h'.le x)
  same e x := by
    simp only [Bool.or_eq_false_iff] at e
    rw [h'.same e.2, h.same e.1]
  more e := by
    have h1 := size_le nts h.le
    have h2 := size_le nts h'.le
    simp only [Bool.or_eq_true] at e
    rcases e with e | e
    · have := h.more e; omega
    · have := h'.more e; omega

theorem insert {nts : List T} {m : SymbolsMap T} {x : T} (hx : x ∈ nts) {s s' : List T} {u : Bool}
    (hm : m.get x = some s) (h : Grows s s' u) : MapGrows nts m (m.insert x s') u where
  dom y := by
    rw [HMap.get_insert]
    split
    · rename_i e; subst e; simp [hm]
    · rfl
  sub y a ha := by
    rw [look_insert]
    split
    · rename_i e; subst e; rw [look_of_get hm] at ha; exact h.sub a ha
    · exact ha
  le y := by
    rw [look_insert]
    split
    · rename_i e; subst e; rw [look_of_get hm]; exact h.le
    · exact Nat.le_refl _
  same e y := by
    rw [HMap.get_insert]
    split
    · rename_i e'; subst e'; rw [hm, h.same e]
    · rfl
  more e := by
    have hlt := h.more e
    refine size_lt (x := x) ?_ hx ?_
    · intro y
      rw [look_insert]
      split
      · rename_i e'; subst e'; rw [look_of_get hm]; exact h.le
      · exact Nat.le_refl _
    · rw [look_insert, if_pos rfl, look_of_get hm]; exact hlt

end MapGrows

end FirstFollow

end Verif
