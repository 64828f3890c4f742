import Verif.Proof.Built
import Mathlib.Data.Fintype.Card
import Mathlib.Data.Set.Finite.List

/-! # Termination of the parser -/

set_option linter.unusedSectionVars false

namespace Verif.Parser

open Spec

variable {σ L T : Type} [DecidableEq T] {eps init : T} {ps : List (Production T)}
  {p : Parser σ L T} {tokens : List (Token L T)}

/-! ## The left-corner order -/

/-- `y` begins a form derived from `x`. -/
def Corner (eps : T) (ps : List (Production T)) (y x : T) : Prop :=
  ∃ v, DerivesPlus eps ps [x] (y :: v)

theorem derivesPlus_derives {a b c : List T} (h : DerivesPlus eps ps a b) (h' : Derives eps ps b c) :
    DerivesPlus eps ps a c := by
  obtain ⟨d, h1, h2⟩ := h
  exact ⟨d, h1, h2.trans h'⟩

theorem Corner.trans {x y z : T} (h : Corner eps ps z y) (h' : Corner eps ps y x) :
    Corner eps ps z x := by
  obtain ⟨w, d, h1, h2⟩ := h
  obtain ⟨v, h3⟩ := h'
  refine ⟨w ++ v, derivesPlus_derives h3 ?_⟩
  have := Derives.context [] v ((Derives.of_step h1).trans h2)
  simpa using this

theorem corner_wf (hnlr : NotLeftRecursive eps ps) :
    WellFounded (fun y x : {x : T // IsNonTerminal ps x} => Corner eps ps y.1 x.1) := by
  have hfin : Finite {x : T // IsNonTerminal ps x} := by
    apply Set.Finite.to_subtype (s := {x | IsNonTerminal ps x})
    have : {x | IsNonTerminal ps x} = {x | x ∈ ps.map (·.input)} := by
      ext x
      simp [IsNonTerminal]
    rw [this]
    exact List.finite_toSet _
  have : IsTrans {x : T // IsNonTerminal ps x} (fun y x => Corner eps ps y.1 x.1) :=
    ⟨fun _ _ _ h h' => h.trans h'⟩
  have : Std.Irrefl (fun y x : {x : T // IsNonTerminal ps x} => Corner eps ps y.1 x.1) :=
    ⟨fun x h => by
      obtain ⟨v, hv⟩ := h
      exact hnlr x.1 v hv⟩
  exact Finite.wellFounded_of_trans_of_irrefl _

/-- A stack that has not moved stands for nullable symbols (or `eps`). -/
theorem StackOk.nullable (hw : WellFormed eps ps) (hp : SolverProgress p.syntaxErrorSolver tokens)
    {pos0 : Nat} {xs : List T} {st : List (PState L T)} {q : Nat}
    (h : StackOk eps ps p tokens pos0 xs st q) (hq : q = pos0) :
    ∀ y ∈ xs, y = eps ∨ Nullable eps ps y := by
  induction h with
  | nil => simp
  | parsing hs hi hst ih =>
    rename_i x xs st q s
    have h1 := (hst.progress hp).1
    have h2 := hs.le
    have h3 : q = pos0 := by omega
    intro y hy
    rw [List.mem_cons] at hy
    rcases hy with rfl | hy
    · have := hs.tree
      rw [hq, h3, word_self] at this
      rcases isTree_derives hw this with ⟨h', _⟩ | ⟨_, h'⟩
      · exact .inl h'
      · exact .inr (by simpa [Nullable] using h')
    · exact ih h3 y hy
  | fixed hx hf hs hsym hq' hst ih =>
    have h1 := (hst.progress hp).1
    have h2 := hq' 1 hp
    omega

/-- A non-terminal reached without moving is a left corner. -/
theorem corner_of_stack (hw : WellFormed eps ps) (hp : SolverProgress p.syntaxErrorSolver tokens)
    {x y : T} {out xs ys : List T} (hout : (⟨x, out⟩ : Production T) ∈ ps)
    (hsplit : out = xs.reverse ++ y :: ys) (hy : IsNonTerminal ps y) {pos0 : Nat}
    {st : List (PState L T)} {q : Nat} (h : StackOk eps ps p tokens pos0 xs st q) :
    pos0 < q ∨ (q = pos0 ∧ Corner eps ps y x) := by
  have h1 := (h.progress hp).1
  rcases Nat.lt_or_ge pos0 q with h2 | h2
  · exact .inl h2
  · have hq : q = pos0 := by omega
    refine .inr ⟨hq, ys, out, ?_, ?_⟩
    · have hr : rhs eps (⟨x, out⟩ : Production T) = out := by
        unfold rhs
        rw [if_neg]
        intro e
        simp only at e
        have hye : y = eps := by
          have : y ∈ out := by simp [hsplit]
          rw [e] at this
          simpa using this
        obtain ⟨r, hr, hr2⟩ := hy
        exact (hw r hr).1 (hr2.trans hye)
      have := Step.of_production (eps := eps) hout
      rw [hr] at this
      exact this
    · have hnull := h.nullable hw hp hq
      have heps : eps ∉ out := by
        intro he
        have hl := (hw _ hout).2.2 he
        simp only at hl
        rw [hsplit] at hl he
        simp only [List.length_append, List.length_reverse, List.length_cons] at hl
        have h3 : xs = [] := List.length_eq_zero_iff.1 (by omega)
        have h4 : ys = [] := List.length_eq_zero_iff.1 (by omega)
        subst h3 h4
        simp at he
        obtain ⟨r, hr, hr2⟩ := hy
        exact (hw r hr).1 (hr2.trans he.symm)
      have hd : Derives eps ps xs.reverse [] := by
        apply StrNullable.derives
        intro z hz
        rcases hnull z (by simpa using hz) with rfl | h'
        · exact absurd (by rw [hsplit]; simp at hz; simp [hz]) heps
        · exact h'
      rw [hsplit]
      have := Derives.context [] (y :: ys) hd
      simpa using this

/-! ## The weight of a stack -/

/-- The number of alternatives left in a state. -/
def digit : PState L T → Nat
  | .parsing s => (s.prodIterOption.getD []).length
  | .fixed _ => 0

/-- The alternatives left in a stack as the digits of a number, the bottom of the stack first. -/
def weight (B : Nat) : List (PState L T) → Nat
  | [] => 0
  | s :: st => B * weight B st + digit s

/-- The measure of the loop over a production of length `k`. -/
def measure (B k : Nat) (st : List (PState L T)) : Nat := (weight B st + 1) * B ^ (k - st.length)

theorem measure_push {B k : Nat} {s : PState L T} {st : List (PState L T)} (hs : digit s + 1 < B)
    (hk : st.length < k) : measure B k (s :: st) < measure B k st := by
  unfold measure
  rw [show k - st.length = (k - (s :: st).length) + 1 by simp; omega, Nat.pow_succ, weight]
  have hB : 0 < B ^ (k - (s :: st).length) := Nat.pow_pos (by omega)
  have : (weight B st + 1) * (B ^ (k - (s :: st).length) * B) =
      (B * weight B st + B) * B ^ (k - (s :: st).length) := by
    rw [Nat.mul_comm (B ^ _) B, ← Nat.mul_assoc]
    congr 1
    rw [Nat.add_mul, Nat.mul_comm (weight B st) B, Nat.one_mul]
  rw [this]
  exact Nat.mul_lt_mul_of_pos_right (by omega) hB

theorem weight_append_le {B : Nat} (above st : List (PState L T)) :
    B ^ above.length * weight B st ≤ weight B (above ++ st) := by
  induction above with
  | nil => simp
  | cons a above ih =>
    simp only [List.cons_append, weight, List.length_cons, Nat.pow_succ]
    calc B ^ above.length * B * weight B st = B * (B ^ above.length * weight B st) := by
          rw [Nat.mul_comm (B ^ above.length) B, Nat.mul_assoc]
      _ ≤ B * weight B (above ++ st) := Nat.mul_le_mul_left _ ih
      _ ≤ _ := Nat.le_add_right _ _

theorem measure_pop {B k : Nat} (hB : 0 < B) {s s' : PState L T} {above st : List (PState L T)}
    (hs : digit s' < digit s) (hk : (above ++ s :: st).length ≤ k) :
    measure B k (s' :: st) < measure B k (above ++ s :: st) := by
  unfold measure
  have h1 : k - (s' :: st).length = above.length + (k - (above ++ s :: st).length) := by
    simp only [List.length_append, List.length_cons] at hk ⊢
    omega
  rw [h1, Nat.pow_add, ← Nat.mul_assoc]
  have hp : 0 < B ^ (k - (above ++ s :: st).length) := Nat.pow_pos hB
  apply Nat.mul_lt_mul_of_pos_right _ hp
  have h2 := weight_append_le (B := B) above (s :: st)
  have h3 : weight B (s' :: st) + 1 ≤ weight B (s :: st) := by
    simp only [weight]
    omega
  calc (weight B (s' :: st) + 1) * B ^ above.length ≤ weight B (s :: st) * B ^ above.length :=
        Nat.mul_le_mul_right _ h3
    _ = B ^ above.length * weight B (s :: st) := Nat.mul_comm _ _
    _ < _ := by omega

theorem measure_pos {B k : Nat} (hB : 0 < B) (st : List (PState L T)) : 0 < measure B k st :=
  Nat.mul_pos (by omega) (Nat.pow_pos hB)

/-- Backtracking replaces a state by one with fewer alternatives and drops what is above. -/
theorem popStates_digit {rec : Rec σ L T} (hrec : RecOk eps ps p tokens rec) {sg : Bool} {pos0 : Nat}
    {xs : List T} {st : List (PState L T)} {q : Nat} (hst : StackOk eps ps p tokens pos0 xs st q)
    {acc : List (PState L T)} {s s' : σ} {r : List (PState L T) × Option (List (PState L T))}
    (e : popStates rec sg st acc s = .ok (r, s')) (hr : r.2 = none) :
    ∃ above s0 s1 st1, r.1 = s1 :: st1 ∧ st = above ++ s0 :: st1 ∧ digit s1 < digit s0 := by
  induction hst generalizing acc s with
  | nil =>
    simp only [popStates, M.pure_apply, Out.ok.injEq, Prod.mk.injEq] at e
    obtain ⟨rfl, rfl⟩ := e
    simp at hr
  | fixed hx hf hs hsym hq hst ih =>
    rename_i x xs st q sf
    rw [popStates] at e
    obtain ⟨above, s0, s1, st1, h1, h2, h3⟩ := ih e
    exact ⟨.fixed sf :: above, s0, s1, st1, h1, by simp [h2], h3⟩
  | parsing hs hi hst ih =>
    rename_i x xs st q s0
    have hrest : ∀ {acc s}, popStates rec sg st acc s = .ok (r, s') →
        ∃ above s1 s2 st1, r.1 = s2 :: st1 ∧ PState.parsing s0 :: st = above ++ s1 :: st1 ∧
          digit s2 < digit s1 := by
      intro acc s e
      obtain ⟨above, s1, s2, st1, h1, h2, h3⟩ := ih e
      exact ⟨.parsing s0 :: above, s1, s2, st1, h1, by simp [h2], h3⟩
    rw [popStates] at e
    by_cases hx : IsNonTerminal ps x
    · obtain ⟨it, hit, hpre⟩ := hi.1 hx
      simp only [hit] at e
      rw [M.bind_eq_ok] at e
      obtain ⟨res, s1, e1, e2⟩ := e
      rw [hs.tree.label] at e1
      have hpost := hrec _ _ _ _ _ _ _ hx hpre e1
      cases res with
      | ok s2 =>
        simp only [M.pure_apply, Out.ok.injEq, Prod.mk.injEq] at e2
        obtain ⟨rfl, rfl⟩ := e2
        obtain ⟨_, rest, hr1, hr2, _⟩ := hpost
        exact ⟨[], .parsing s0, _, st, rfl, rfl, by simpa [digit, hit, hr1] using hr2⟩
      | err f => exact hrest e2
      | fix s2 => exact hrest e2
    · simp only [hi.2 hx] at e
      exact hrest e

/-! ## The loops come to an end if the recursive calls do -/

theorem M.bind_ne_fuel {α β : Type} {x : M σ α} {f : α → M σ β} {s : σ} (hx : x s ≠ .fuel)
    (hf : ∀ a s1, x s = .ok (a, s1) → f a s1 ≠ .fuel) : (x >>= f) s ≠ .fuel := by
  rw [M.bind_apply]
  cases e : x s with
  | ok a => exact hf a.1 a.2 e
  | panic q => simp
  | fuel => exact absurd e hx

/-- The recursive calls in `R` end. -/
def Ends (ps : List (Production T)) (p : Parser σ L T) (tokens : List (Token L T))
    (rec : Rec σ L T) (R : T → Nat → Prop) : Prop :=
  ∀ y q outs sg s, IsNonTerminal ps y → R y q → Pre p tokens y q outs → rec y q outs sg s ≠ .fuel

/-- The recursive calls that can happen while a production of `x` is parsed at `pos0` are in `R`. -/
def CallsIn (eps : T) (ps : List (Production T)) (p : Parser σ L T) (tokens : List (Token L T))
    (x : T) (pos0 : Nat) (R : T → Nat → Prop) : Prop :=
  ∀ (out xs : List T) (y : T) (ys : List T) (st : List (PState L T)) (q : Nat),
    (⟨x, out⟩ : Production T) ∈ ps → out = xs.reverse ++ y :: ys → IsNonTerminal ps y →
    StackOk eps ps p tokens pos0 xs st q → R y q

theorem callsIn_corner (hw : WellFormed eps ps) (hp : SolverProgress p.syntaxErrorSolver tokens)
    (x : T) (pos0 : Nat) : CallsIn eps ps p tokens x pos0
      (fun y q => pos0 < q ∨ (q = pos0 ∧ Corner eps ps y x)) :=
  fun _ _ _ _ _ _ hout hs hy hst => corner_of_stack hw hp hout hs hy hst

theorem popStates_ends {rec : Rec σ L T} {x : T} {pos0 : Nat} {R : T → Nat → Prop}
    (hends : Ends ps p tokens rec R) (hcalls : CallsIn eps ps p tokens x pos0 R) {out : List T}
    (hout : (⟨x, out⟩ : Production T) ∈ ps) {sg : Bool} {xs : List T} {st : List (PState L T)}
    {q : Nat} (hst : StackOk eps ps p tokens pos0 xs st q) (hxs : ∃ ys, out = xs.reverse ++ ys)
    (acc : List (PState L T)) (s : σ) : popStates rec sg st acc s ≠ .fuel := by
  induction hst generalizing acc s with
  | nil => simp [popStates]
  | fixed hx hf hs hsym hq hst ih =>
    obtain ⟨ys, hys⟩ := hxs
    rw [popStates]
    exact ih ⟨_, by rw [hys, List.reverse_cons, List.append_assoc]⟩ _ _
  | parsing hs hi hst ih =>
    rename_i y xs st q s0
    obtain ⟨ys, hys⟩ := hxs
    have hys' : out = xs.reverse ++ y :: ys := by rw [hys]; simp
    have ih' := ih ⟨_, hys'⟩
    rw [popStates]
    by_cases hy : IsNonTerminal ps y
    · obtain ⟨it, hit, hpre⟩ := hi.1 hy
      simp only [hit]
      rw [hs.tree.label]
      have hc := hcalls _ _ _ _ _ _ hout hys' hy hst
      refine M.bind_ne_fuel (hends y _ it sg s hy ?_ hpre) ?_
      · rw [hs.initial]; exact hc
      · intro r s1 _
        cases r with
        | ok s2 => simp
        | err f => exact ih' _ _
        | fix s2 => exact ih' _ _
    · simp only [hi.2 hy]
      exact ih' _ _

theorem lift_ne_fuel {x : T} {l : List (PState L T)} {s : σ} : lift (buildNode x l) s ≠ .fuel := by
  have hs : ∀ l : List (PState L T), statesToNodes l ≠ .fuel := by
    intro l
    induction l with
    | nil => simp [statesToNodes]
    | cons a l ih =>
      cases a with
      | fixed s => simp [statesToNodes]
      | parsing s =>
        simp only [statesToNodes]
        cases h : statesToNodes l with
        | ok a => simp
        | panic e => simp
        | fuel => exact absurd h ih
  have hb : buildNode x l ≠ .fuel := by
    unfold buildNode
    split
    · simp
    · cases h : statesToNodes l with
      | ok a => simp
      | panic e => simp
      | fuel => exact absurd h (hs l)
  unfold lift
  cases h : buildNode x l with
  | ok a => simp
  | panic e => simp
  | fuel => exact absurd h hb

theorem productionLoop_ends (P : ParserOf eps init ps p) {rec : Rec σ L T}
    (hok : RecOk eps ps p tokens rec) {x : T} {pos0 : Nat} {R : T → Nat → Prop}
    (hends : Ends ps p tokens rec R) (hcalls : CallsIn eps ps p tokens x pos0 R) {out : List T}
    (hout : (⟨x, out⟩ : Production T) ∈ ps) {sg : Bool} (n : Nat) {xs : List T}
    {st : List (PState L T)} {q : Nat} (hst : StackOk eps ps p tokens pos0 xs st q)
    (hxs : ∃ ys, out = xs.reverse ++ ys) (hn : measure (ps.length + 2) out.length st ≤ n) (s : σ) :
    productionLoop p tokens rec x out sg n st q s ≠ .fuel := by
  induction n generalizing xs st q s with
  | zero =>
    have := measure_pos (B := ps.length + 2) (k := out.length) (by omega) st
    omega
  | succ n ih =>
    obtain ⟨ys, hys⟩ := hxs
    have hlen := hst.length
    rw [productionLoop]
    split
    · rename_i hlt
      cases ys with
      | nil => rw [hys] at hlt; simp at hlt; omega
      | cons y ys =>
        have hget : out[st.length]? = some y := by
          rw [hys, List.getElem?_append_right (by simp; omega)]
          simp [hlen]
        simp only [hget]
        have hys' : out = (y :: xs).reverse ++ ys := by simp [hys]
        refine M.bind_ne_fuel ?_ ?_
        · unfold parseProductionSymbol
          by_cases hy : p.grammar.isNonTerminal y = true
          · rw [if_pos hy]
            unfold parseProductionNonTerminal
            cases ht : tokens[q]? with
            | none => simp
            | some t =>
              have hny := (isNT_iff P y).1 hy
              exact hends _ _ _ _ _ hny (hcalls _ _ _ _ _ _ hout hys hny hst)
                ⟨t, ht, List.suffix_refl _⟩
          · rw [if_neg hy]; simp
        · intro r s1 e1
          rcases parseProductionSymbol_spec P hok e1 with
            ⟨s2, rfl, ho, hi⟩ | ⟨fs, rfl, hf⟩ | ⟨s2, rfl, hy, h1, h2, h3, h4⟩
          · refine ih (.parsing ho hi hst) ⟨ys, hys'⟩ ?_ _
            have hd : digit (PState.parsing s2) + 1 < ps.length + 2 := by
              simp only [digit]
              by_cases hy : IsNonTerminal ps y
              · obtain ⟨it, hit, t, _, hsuf⟩ := hi.1 hy
                rw [hit]
                have h1 := hsuf.length_le
                have h2 := P.count y t.tType
                simp only [Option.getD_some]
                omega
              · rw [hi.2 hy]; simp
            have := measure_push (st := st) hd hlt
            omega
          · refine M.bind_ne_fuel
              (popStates_ends hends hcalls hout hst ⟨_, hys⟩ [] s1) ?_
            rintro ⟨st', o⟩ s2 e3
            rcases popStates_spec hok hst e3 with
              ⟨parsed, h1, h2⟩ | ⟨h1, xs', s3, st3, above, q', h2, h3, h4⟩
            · simp only at h1
              subst h1
              simp
            · obtain ⟨above', s4, s5, st4, h5, h6, h7⟩ := popStates_digit hok hst e3 h1
              simp only at h1 h2 h5
              subst h1 h2
              simp only
              rw [← h4.top]
              refine ih h4 ⟨above.reverse ++ y :: ys, ?_⟩ ?_ _
              · rw [hys, h3]; simp
              · simp only [List.cons.injEq] at h5
                obtain ⟨rfl, rfl⟩ := h5
                have := measure_pop (B := ps.length + 2) (k := out.length) (by omega) (above := above')
                  (st := st3) h7 (by rw [← h6]; omega)
                rw [← h6] at this
                omega
          · refine ih (.fixed hy h1 h2 h3 h4 hst) ⟨ys, hys'⟩ ?_ _
            have := measure_push (B := ps.length + 2) (s := PState.fixed s2) (st := st)
              (by simp [digit]) hlt
            omega
    · refine M.bind_ne_fuel lift_ne_fuel ?_
      intro r s1 _
      simp

theorem tryParseProductionsLoop_ends (P : ParserOf eps init ps p) {rec : Rec σ L T}
    (hok : RecOk eps ps p tokens rec) {x : T} {pos : Nat} {R : T → Nat → Prop}
    (hends : Ends ps p tokens rec R) (hcalls : CallsIn eps ps p tokens x pos R) {sg : Bool} {n : Nat} {outs : List (List T)}
    (houts : ∀ out ∈ outs, (⟨x, out⟩ : Production T) ∈ ps)
    (hn : ∀ out ∈ outs, (ps.length + 2) ^ out.length ≤ n) (failed : List (FailedProduction L T))
    (s : σ) : tryParseProductionsLoop p tokens rec n x pos sg outs failed s ≠ .fuel := by
  induction outs generalizing failed s with
  | nil => simp [tryParseProductionsLoop]
  | cons o outs ih =>
    rw [tryParseProductionsLoop]
    refine M.bind_ne_fuel
      (productionLoop_ends P hok hends hcalls (houts o (by simp)) n (pos0 := pos) .nil ⟨o, rfl⟩ ?_ s) ?_
    · have := hn o (by simp)
      simpa [measure, weight] using this
    · rintro ⟨r, q⟩ s1 _
      cases r with
      | ok node => simp
      | err f => exact ih (fun o h => houts o (by simp [h])) (fun o h => hn o (by simp [h])) _ _
      | fix fp => simp

/-- The call for `x` at `pos` ends with the given fuel, for every solver state. -/
def EndsAt (p : Parser σ L T) (tokens : List (Token L T)) (n : Nat) (x : T) (pos : Nat) : Prop :=
  ∀ outs sg s, Pre p tokens x pos outs → innerParse p tokens n x pos outs sg s ≠ .fuel

theorem EndsAt.mono {n m : Nat} (hnm : n ≤ m) {x : T} {pos : Nat}
    (h : EndsAt p tokens n x pos) : EndsAt p tokens m x pos := by
  intro outs sg s hpre e
  rcases innerParse_le p tokens hnm x pos outs sg s with h' | h'
  · exact h outs sg s hpre h'
  · rw [e] at h'
    exact h outs sg s hpre h'

theorem exists_uniform {α : Type} (l : List α) (R : Nat → α → Prop)
    (hmono : ∀ n m a, n ≤ m → R n a → R m a) (h : ∀ a ∈ l, ∃ n, R n a) : ∃ n, ∀ a ∈ l, R n a := by
  induction l with
  | nil => exact ⟨0, by simp⟩
  | cons a l ih =>
    obtain ⟨n, hn⟩ := ih (fun b hb => h b (by simp [hb]))
    obtain ⟨m, hm⟩ := h a (by simp)
    refine ⟨max n m, ?_⟩
    intro b hb
    rw [List.mem_cons] at hb
    rcases hb with rfl | hb
    · exact hmono m _ _ (by omega) hm
    · exact hmono n _ _ (by omega) (hn b hb)

/-- If the calls that can happen are in a well-founded relation, every call ends. -/
theorem endsAt_of_wf (P : ParserOf eps init ps p) (hst : SolverTerminates p.syntaxErrorSolver)
    {R : T × Nat → T × Nat → Prop}
    (hwf : ∀ x pos, IsNonTerminal ps x → pos < tokens.length →
      Acc (fun b a : T × Nat => IsNonTerminal ps b.1 ∧ b.2 < tokens.length ∧ R b a) (x, pos))
    (hcalls : ∀ x pos, IsNonTerminal ps x →
      CallsIn eps ps p tokens x pos (fun y q => R (y, q) (x, pos)))
    (x : T) (hx : IsNonTerminal ps x) (pos : Nat) : ∃ n, EndsAt p tokens n x pos := by
  rcases Nat.lt_or_ge pos tokens.length with hlt | hge
  · have key : ∀ a : T × Nat,
        Acc (fun b a : T × Nat => IsNonTerminal ps b.1 ∧ b.2 < tokens.length ∧ R b a) a →
        IsNonTerminal ps a.1 → ∃ n, EndsAt p tokens n a.1 a.2 := by
      intro a hacc
      induction hacc with
      | intro a _ iha =>
        obtain ⟨x, pos⟩ := a
        intro hx
        -- one bound for all the calls that can happen
        obtain ⟨N, hN⟩ : ∃ N, ∀ z ∈ (ps.map (·.input)).flatMap
            (fun y => (List.range tokens.length).map (fun q => (y, q))),
            R z (x, pos) → EndsAt p tokens N z.1 z.2 := by
          apply exists_uniform _ (fun N (z : T × Nat) => R z (x, pos) → EndsAt p tokens N z.1 z.2)
          · intro n m z hnm h h'
            exact (h h').mono hnm
          · rintro ⟨y, q⟩ hz
            simp only [List.mem_flatMap, List.mem_map, List.mem_range] at hz
            obtain ⟨y', ⟨pr, hpr, hy⟩, q', hq, he⟩ := hz
            simp only [Prod.mk.injEq] at he
            obtain ⟨rfl, rfl⟩ := he
            have hny : IsNonTerminal ps y' := ⟨pr, hpr, hy⟩
            by_cases hc : R (y', q') (x, pos)
            · obtain ⟨n, hn⟩ := iha (y', q') ⟨hny, hq, hc⟩ hny
              exact ⟨n, fun _ => hn⟩
            · exact ⟨0, fun h => absurd h hc⟩
        obtain ⟨K, hK⟩ : ∃ K, ∀ pr ∈ ps, (ps.length + 2) ^ pr.output.length ≤ K :=
          exists_uniform ps (fun K (pr : Production T) => (ps.length + 2) ^ pr.output.length ≤ K)
            (fun _ _ _ h h' => by omega) (fun pr _ => ⟨_, Nat.le_refl _⟩)
        refine ⟨max N K + 1, ?_⟩
        intro outs sg s hpre
        have hok : RecOk eps ps p tokens (innerParse p tokens (max N K)) :=
          fun x pos outs sg s r s' _ ho e => innerParse_spec P tokens _ ho e
        have hends : Ends ps p tokens (innerParse p tokens (max N K))
            (fun y q => R (y, q) (x, pos)) := by
          intro y q outs sg s hny hc hpre
          have := hN (y, q) (by
            simp only [List.mem_flatMap, List.mem_map, List.mem_range, Prod.mk.injEq]
            obtain ⟨pr, hpr, hy⟩ := hny
            exact ⟨y, ⟨pr, hpr, hy⟩, q, hpre.lt, rfl, rfl⟩) hc
          exact this.mono (by omega) outs sg s hpre
        simp only
        rw [innerParse]
        refine M.bind_ne_fuel (tryParseProductionsLoop_ends P hok hends (hcalls x pos hx)
          (fun o ho => hpre.mem P ho) (fun o ho => ?_) [] s) ?_
        · have := hK _ (hpre.mem P ho)
          simp only at this
          omega
        · intro r s1 _
          cases r with
          | ok r => simp
          | error failed =>
            refine M.bind_ne_fuel ?_ (fun _ _ _ => by simp)
            unfold tryFixProductions
            cases hsv : p.syntaxErrorSolver with
            | none => simp
            | some sv =>
              simp only
              split
              · split
                · cases failed[0]? with
                  | none => simp
                  | some f => exact (hst sv hsv).1 _ _ _ _
                · exact (hst sv hsv).2 _ _ _ _
              · simp
    exact key (x, pos) (hwf x pos hx hlt) hx
  · refine ⟨0, ?_⟩
    intro outs sg s hpre
    have := hpre.lt
    omega

/-- Moving forward, or standing still and going down a well-founded order of the non-terminals,
is well-founded on the positions of the tokens. -/
theorem forward_acc {N : Nat} {C : T → T → Prop}
    (hC : WellFounded (fun y x : {x : T // IsNonTerminal ps x} => C y.1 x.1))
    (x : {x : T // IsNonTerminal ps x}) (pos : Nat) :
    Acc (fun b a : T × Nat => IsNonTerminal ps b.1 ∧ b.2 < N ∧
      (a.2 < b.2 ∨ (b.2 = a.2 ∧ C b.1 a.1))) (x.1, pos) := by
  induction hd : N - pos using Nat.strongRecOn generalizing x pos with
  | ind d ihd =>
    induction x using hC.induction with
    | h x ihx =>
      refine Acc.intro _ ?_
      rintro ⟨y, q⟩ ⟨hny, hq, hc⟩
      simp only at hny hq hc
      rcases hc with hc | ⟨rfl, hc⟩
      · exact ihd (N - q) (by omega) ⟨y, hny⟩ q rfl
      · exact ihx ⟨y, hny⟩ hc

theorem endsAt (P : ParserOf eps init ps p) (hnlr : NotLeftRecursive eps ps)
    (hp : SolverProgress p.syntaxErrorSolver tokens) (hst : SolverTerminates p.syntaxErrorSolver)
    (x : {x : T // IsNonTerminal ps x}) (pos : Nat) : ∃ n, EndsAt p tokens n x.1 pos :=
  endsAt_of_wf P hst (R := fun b a => a.2 < b.2 ∨ (b.2 = a.2 ∧ Corner eps ps b.1 a.1))
    (fun x pos hx _ => forward_acc (corner_wf hnlr) ⟨x, hx⟩ pos)
    (fun x pos _ => callsIn_corner P.grammar.wf hp x pos) x.1 x.2 pos

/-- The parser returns or panics if every call for the initial symbol does. -/
theorem parse_ends_of (P : ParserOf eps init ps p) (hst : SolverTerminates p.syntaxErrorSolver)
    (h : IsNonTerminal ps init → ∃ n, EndsAt p tokens n init 0)
    (s : σ) : ∃ n, p.parseFromTokens n tokens s ≠ .fuel := by
  by_cases hi : IsNonTerminal ps init
  · obtain ⟨n, hn⟩ := h hi
    refine ⟨n, ?_⟩
    unfold parseFromTokens
    split
    · simp
    · cases ht : tokens[0]? with
      | none => simp
      | some t =>
        simp only
        rw [P.grammar.init_eq]
        exact M.bind_ne_fuel (hn _ _ _ ⟨t, ht, List.suffix_refl _⟩) (fun _ _ _ => by simp)
  · refine ⟨1, ?_⟩
    unfold parseFromTokens
    split
    · simp
    · cases ht : tokens[0]? with
      | none => simp
      | some t =>
        have hnil : p.getTokenProductions init t.tType = [] := by
          rw [List.eq_nil_iff_forall_not_mem]
          intro o ho
          exact hi ⟨_, P.cand _ _ _ ho, rfl⟩
        simp only
        rw [P.grammar.init_eq, hnil]
        refine M.bind_ne_fuel ?_ (fun _ _ _ => by simp)
        simp only [innerParse, tryParseProductionsLoop, M.pure_bind']
        refine M.bind_ne_fuel ?_ (fun _ _ _ => by simp)
        unfold tryFixProductions
        cases hsv : p.syntaxErrorSolver with
        | none => simp
        | some sv =>
          simp only [if_true, isChildSinglePath, List.length_nil]
          simpa using (hst sv hsv).2 _ _ _ _

/-- The parser returns or panics. -/
theorem parse_ends (P : ParserOf eps init ps p) (hnlr : NotLeftRecursive eps ps)
    (hp : SolverProgress p.syntaxErrorSolver tokens) (hst : SolverTerminates p.syntaxErrorSolver)
    (s : σ) : ∃ n, p.parseFromTokens n tokens s ≠ .fuel :=
  parse_ends_of P hst (fun hi => endsAt P hnlr hp hst ⟨init, hi⟩ 0) s

/-! ## Divergence -/

theorem innerParse_diverges {a : T} {rest : List (Token L T)} {t : Token L T} (ht : t.tType = a)
    (S : T → Prop) (hS : ∀ x, S x → ∃ y out outs, p.getTokenProductions x a = (y :: out) :: outs ∧
      p.grammar.isNonTerminal y = true ∧ S y) (n : Nat) (x : T) (hx : S x) (sg : Bool) (s : σ) :
    innerParse p (t :: rest) n x 0 (p.getTokenProductions x a) sg s = .fuel := by
  induction n generalizing x sg s with
  | zero => rfl
  | succ n ih =>
    obtain ⟨y, out, outs, h1, h2, h3⟩ := hS x hx
    rw [h1, innerParse, M.bind_apply]
    have hl : ∀ m : Nat, productionLoop p (t :: rest) (innerParse p (t :: rest) n) x (y :: out)
        (isChildSinglePath sg ((y :: out) :: outs)) m [] 0 s = .fuel := by
      intro m
      cases m with
      | zero => rfl
      | succ m =>
        rw [productionLoop]
        simp only [List.length_nil, List.length_cons, Nat.zero_lt_succ, if_true,
          List.getElem?_cons_zero]
        rw [M.bind_apply, parseProductionSymbol, if_pos h2, parseProductionNonTerminal]
        simp only [List.getElem?_cons_zero, ht]
        rw [ih y h3]
    rw [tryParseProductionsLoop, M.bind_apply, hl n]

end Verif.Parser
