import Verif.Proof.Predicted

/-! # Trees built of first candidates are found -/

set_option linter.unusedSectionVars false

namespace Verif.Parser.Recovery

open Spec Spec.Recovery

variable {σ L T : Type} [DecidableEq T] {eps : T} {ps : List (Production T)}
  {cand : T → T → List (List T)} {solver : Option (Solver σ L T)} {tokens : List (Token L T)}

theorem mem_take_one {α : Type} {l : List α} {a : α} (h : a ∈ l.take 1) : ∃ m, l = a :: m := by
  cases l with
  | nil => simp at h
  | cons b m =>
    simp only [List.take_succ_cons, List.take_zero, List.mem_singleton] at h
    exact ⟨m, by rw [h]⟩

theorem seq_of_first {xs : List T} {i j : Nat} {ns : List (Node L T)}
    (h : PredictedSeq eps ps (fun x a => (cand x a).take 1) tokens xs i ns j) (single : Bool) (s : σ) :
    Spec.Recovery.Seq eps ps cand solver tokens single xs i s (.found (ns.map .ok, j) s) := by
  revert single s
  refine PredictedSeq.rec (eps := eps) (ps := ps) (cand := fun x a => (cand x a).take 1) (tokens := tokens)
    (motive_1 := fun x i n j _ => ∀ xs (r : SeqOutcome σ L T) (single : Bool) (s : σ),
      Spec.Recovery.Seq eps ps cand solver tokens single xs j s r →
      (∃ l q s', r = .found (l, q) s') →
      Spec.Recovery.Seq eps ps cand solver tokens single (x :: xs) i s (r.cons (.ok n)))
    (motive_2 := fun xs i ns j _ => ∀ (single : Bool) (s : σ),
      Spec.Recovery.Seq eps ps cand solver tokens single xs i s (.found (ns.map .ok, j) s))
    ?_ ?_ ?_ ?_ ?_ h
  · intro t i h1 h2 h3 xs r sg s hr _
    exact .terminal sg xs i s t r h1 h2 h3 hr
  · intro i xs r sg s hr _
    exact .eps sg xs i s r hr
  · intro x i t out ns j hx ht ho hs ih xs r sg s hr he
    obtain ⟨l, q, s', rfl⟩ := he
    obtain ⟨more, hc⟩ := mem_take_one ho
    refine .nonTerminal sg x xs i s s t (.mk ns ⟨none, x⟩) j more _ _ hx ht ?_ hr (.found _ _ _ _ _ _ _ _ _)
    rw [hc]
    exact .derived _ _ _ _ _ _ _ (.node _ _ _ _ _ _ _ _ _ (ih _ s))
  · intro i sg s
    exact .nil sg i s
  · intro x xs i j k n ns _ _ ih1 ih2 sg s
    exact ih1 xs _ sg s (ih2 sg s) ⟨_, _, _, rfl⟩

theorem choice_of_first {x : T} {i j : Nat} {n : Node L T} (hx : IsNonTerminal ps x) (hw : WellFormed eps ps)
    (h : Predicted eps ps (fun x a => (cand x a).take 1) tokens x i n j) (s : σ) : ∃ t more, tokens[i]? = some t ∧
      Choice eps ps cand solver tokens x i (cand x t.tType) true s (.found (.node n j more) s) := by
  cases h with
  | leaf t _ h1 => exact absurd hx h1
  | eps =>
    obtain ⟨q, hq, e⟩ := hx
    exact absurd e (hw q hq).1
  | node _ _ t out ns _ _ ht ho hs =>
    obtain ⟨more, hc⟩ := mem_take_one ho
    refine ⟨t, more, ht, ?_⟩
    rw [hc]
    exact .derived _ _ _ _ _ _ _ (.node _ _ _ _ _ _ _ _ _ (seq_of_first hs _ s))

end Verif.Parser.Recovery
