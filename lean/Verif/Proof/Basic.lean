import Verif.Model.Hash

/-! # Lemmas about outcomes, hash maps and hash sets -/

set_option linter.unusedSectionVars false

namespace Verif

namespace Out

variable {α β : Type}

@[simp] theorem bind_ok (a : α) (f : α → Out β) : (Out.ok a >>= f) = f a := rfl
@[simp] theorem bind_panic (p : Panic) (f : α → Out β) : (Out.panic p >>= f) = Out.panic p := rfl
@[simp] theorem bind_fuel (f : α → Out β) : (Out.fuel >>= f) = Out.fuel := rfl
@[simp] theorem pure_eq (a : α) : (pure a : Out α) = .ok a := rfl

theorem bind_eq_ok {x : Out α} {f : α → Out β} {b : β} :
    (x >>= f) = .ok b ↔ ∃ a, x = .ok a ∧ f a = .ok b := by
  cases x <;> simp

theorem bind_unit_eq_ok {x : Out Unit} {f : Unit → Out β} {b : β} :
    (x >>= f) = .ok b ↔ x = .ok () ∧ f () = .ok b := by
  cases x <;> simp

@[simp] theorem unwrap_some (a : α) : unwrap (some a) = .ok a := rfl
@[simp] theorem unwrap_none : (unwrap none : Out α) = .panic .unwrapNone := rfl

theorem unwrap_eq_ok {o : Option α} {a : α} : unwrap o = .ok a ↔ o = some a := by
  cases o <;> simp [unwrap]

end Out

namespace M

variable {σ α β : Type}

theorem bind_apply (x : M σ α) (f : α → M σ β) (s : σ) :
    (x >>= f) s = match x s with
      | .ok (a, s') => f a s'
      | .panic p => .panic p
      | .fuel => .fuel := rfl

@[simp] theorem pure_apply (a : α) (s : σ) : (pure a : M σ α) s = .ok (a, s) := rfl
@[simp] theorem panic_apply (p : Panic) (s : σ) : (M.panic p : M σ α) s = .panic p := rfl
@[simp] theorem fuel_apply (s : σ) : (M.fuel : M σ α) s = .fuel := rfl

theorem bind_eq_ok {x : M σ α} {f : α → M σ β} {s : σ} {r : β × σ} :
    (x >>= f) s = .ok r ↔ ∃ a s', x s = .ok (a, s') ∧ f a s' = .ok r := by
  rw [bind_apply]
  rcases x s with ⟨a, s'⟩ | p | _
  · constructor
    · intro h; exact ⟨a, s', rfl, h⟩
    · rintro ⟨a', s'', h, h'⟩; cases h; exact h'
  · simp
  · simp

@[simp] theorem pure_bind' (a : α) (f : α → M σ β) : (pure a >>= f) = f a := rfl

end M

namespace HMap

variable {K V : Type} [DecidableEq K]

@[simp] theorem get_nil (k : K) : HMap.get ([] : HMap K V) k = none := rfl

theorem get_insert (m : HMap K V) (k : K) (v : V) (k' : K) :
    (m.insert k v).get k' = if k = k' then some v else m.get k' := by
  induction m with
  | nil => simp [insert, get]
  | cons e m ih =>
    obtain ⟨k₀, v₀⟩ := e
    by_cases h : k₀ = k
    · subst h
      by_cases h' : k₀ = k' <;> simp [insert, get, h']
    · by_cases h' : k₀ = k'
      · subst h'
        have : k ≠ k₀ := fun e => h e.symm
        simp [insert, get, h, this]
      · simp [insert, get, h, h', ih]

@[simp] theorem get_insert_self (m : HMap K V) (k : K) (v : V) : (m.insert k v).get k = some v := by
  simp [get_insert]

theorem get_insert_ne (m : HMap K V) {k k' : K} (v : V) (h : k ≠ k') :
    (m.insert k v).get k' = m.get k' := by
  simp [get_insert, h]

theorem keys_insert (m : HMap K V) (k : K) (v : V) :
    (m.insert k v).keys = if k ∈ m.keys then m.keys else m.keys ++ [k] := by
  induction m with
  | nil => simp [insert, keys]
  | cons e m ih =>
    obtain ⟨k₀, v₀⟩ := e
    by_cases h : k₀ = k
    · subst h; simp [insert, keys]
    · have h' : k ≠ k₀ := fun e => h e.symm
      simp only [keys] at ih
      by_cases hk : k ∈ m.map (·.1)
      · simp only [hk, if_true] at ih
        simp only [insert, h, if_false, keys, List.map_cons, ih, List.mem_cons, hk, or_true, if_true]
      · simp only [hk, if_false] at ih
        simp only [insert, h, if_false, keys, List.map_cons, ih, List.mem_cons, hk, or_false, h',
          List.cons_append]

theorem keys_insert_nodup (m : HMap K V) (k : K) (v : V) (h : m.keys.Nodup) :
    (m.insert k v).keys.Nodup := by
  rw [keys_insert]
  split
  · exact h
  · rename_i hk
    exact List.nodup_append.2 ⟨h, by simp, by
      intro a ha b hb
      simp only [List.mem_singleton] at hb
      subst hb; intro e; subst e; exact hk ha⟩

theorem mem_keys_iff (m : HMap K V) (k : K) : k ∈ m.keys ↔ ∃ v, m.get k = some v := by
  induction m with
  | nil => simp [keys]
  | cons e m ih =>
    obtain ⟨k₀, v₀⟩ := e
    by_cases h : k₀ = k
    · subst h; simp [keys, get]
    · have h' : k ≠ k₀ := fun e => h e.symm
      simp only [keys] at ih
      simp [keys, get, h, h', ih]

theorem get_eq_none_iff (m : HMap K V) (k : K) : m.get k = none ↔ k ∉ m.keys := by
  rw [mem_keys_iff]
  cases m.get k <;> simp

/-- The map collected from pairs `(x, f x)`, continued from a map `m`. -/
theorem get_foldl_insert (l : List K) (f : K → V) (m : HMap K V) (k : K) :
    ((l.map (fun x => (x, f x))).foldl (fun m e => insert m e.1 e.2) m).get k =
      if k ∈ l then some (f k) else m.get k := by
  induction l generalizing m with
  | nil => simp
  | cons x l ih =>
    simp only [List.map_cons, List.foldl_cons, ih, get_insert, List.mem_cons]
    by_cases h : k ∈ l
    · simp [h]
    · by_cases hx : x = k
      · subst hx; simp [h]
      · have : k ≠ x := fun e => hx e.symm
        simp [h, hx, this]

theorem get_fromIter_map (l : List K) (f : K → V) (k : K) :
    (fromIter (l.map (fun x => (x, f x)))).get k = if k ∈ l then some (f k) else none := by
  simp [fromIter, get_foldl_insert]

end HMap

section HashSet

variable {T : Type} [DecidableEq T]

theorem mem_hsInsert (s : List T) (x y : T) : y ∈ (hsInsert s x).1 ↔ y ∈ s ∨ y = x := by
  unfold hsInsert
  split
  · rename_i h
    constructor
    · exact Or.inl
    · rintro (h' | rfl) <;> assumption
  · simp

theorem nodup_hsInsert {s : List T} (x : T) (h : s.Nodup) : (hsInsert s x).1.Nodup := by
  unfold hsInsert
  split
  · exact h
  · rename_i hx
    exact List.nodup_append.2 ⟨h, by simp, by
      intro a ha b hb
      simp only [List.mem_singleton] at hb
      subst hb; intro e; subst e; exact hx ha⟩

theorem HashOrder.mem_ord (h : HashOrder T) (s : Site T) (l : List T) (x : T) :
    x ∈ h.ord s l ↔ x ∈ l := (h.perm s l).mem_iff

theorem HashOrder.nodup_ord (h : HashOrder T) (s : Site T) (l : List T) :
    (h.ord s l).Nodup ↔ l.Nodup := (h.perm s l).nodup_iff

end HashSet

end Verif
