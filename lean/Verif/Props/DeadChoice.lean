import Verif.Proof.DeadChoice
import Verif.Props.DanglingElse

/-!
# Property C113: productions that are never used
-/

namespace Verif.Props

open Verif.Spec

variable {σ L T : Type} [DecidableEq T]

namespace DeadChoice

/-- Trees predicted with productions of a grammar that has the same non-terminals are its parse trees. -/
theorem isTree_of_predicted {eps : T} {ps ps' : List (Production T)} {cand : T → T → List (List T)}
    {tokens : List (Token L T)} (hnt : ∀ x, IsNonTerminal ps' x ↔ IsNonTerminal ps x)
    (hc : ∀ x a, ∀ o ∈ cand x a, (⟨x, o⟩ : Production T) ∈ ps') {x : T} {i j : Nat} {n : Node L T}
    (h : Predicted eps ps cand tokens x i n j) :
    ∃ w, tokens.drop i = w ++ tokens.drop j ∧ IsTree eps ps' x w n := by
  refine Predicted.rec (eps := eps) (ps := ps) (cand := cand) (tokens := tokens)
    (motive_1 := fun x i n j _ => ∃ w, tokens.drop i = w ++ tokens.drop j ∧ IsTree eps ps' x w n)
    (motive_2 := fun xs i ns j _ => ∃ w, tokens.drop i = w ++ tokens.drop j ∧ IsForest eps ps' xs w ns)
    ?_ ?_ ?_ ?_ ?_ h
  · intro t i h1 h2 h3
    obtain ⟨hi, rfl⟩ := List.getElem?_eq_some_iff.1 h3
    exact ⟨[tokens[i]], by simp, .leaf _ (fun hc => h1 ((hnt _).1 hc)) h2⟩
  · intro i
    exact ⟨[], rfl, .eps⟩
  · rintro x i t out ns j _ _ ho _ ⟨w, h1, h2⟩
    exact ⟨w, h1, .node ⟨x, out⟩ w ns (hc _ _ _ ho) h2⟩
  · intro i
    exact ⟨[], rfl, .nil⟩
  · rintro x xs i j k n ns _ _ ⟨w, h1, h2⟩ ⟨w', h3, h4⟩
    exact ⟨w ++ w', by rw [h1, h3, List.append_assoc], .cons _ _ _ _ _ _ h2 h4⟩

end DeadChoice

section
variable (h : HashOrder T) (eps init : T) (ps : List (Production T))
  (g : Grammar T) (hg : Grammar.new h eps init ps = .ok g) (p : Parser σ L T) (hp : BuiltAny h g p)
  (X : T) (hend : ∀ q ∈ ps, ∀ u v, q.output = u ++ X :: v → v = [])
include hg hp hend

/-- **C113.** Let the symbol `X` stand at the end of productions only. Then in the tree of an `Ok` result of a parser without
solver, `X` is only expanded by the empty production where that one is the first candidate. -/
theorem C113_dead (tokens : List (Token L T)) (s s' : σ) (tree : Tree L T) (hr : Parses p tokens s (.ok tree) s') :
    ∃ k, Predicted eps ps (emptyFirst eps X (candidates p.transitions)) tokens init 0 tree.root k := by
  obtain ⟨P, hs⟩ := hp.parserOf hg
  obtain ⟨_, _, hnt, _⟩ := ok_tree P hr
  cases tokens with
  | nil => obtain ⟨n, hn⟩ := Parser.parses_at hr; simp [Parser.parseFromTokens] at hn
  | cons t ts =>
    obtain ⟨-, q, rest, hc⟩ := ((Parser.parse_iff_choice P hs t ts s).1 tree s').1 hr
    rw [← candidates_eq] at hc
    refine ⟨q, Dead.choice_dead (fun ⟨r, hr, e⟩ => (P.grammar.wf r hr).1 e) ?_ hnt hc
      ⟨t, rfl, fun _ ho => ho, fun e _ => by rw [e]⟩ _ _ _ rfl⟩
    intro x a o ho
    rw [candidates_eq] at ho
    exact hend _ (P.cand x a o ho)

/-- **C113**, productions that are never used: if moreover the empty production is the first candidate of `X` in each cell
that has a certain other production of `X`, then whatever is accepted has a parse tree without this production, and that is
the tree returned. -/
theorem C113_never_used (o : List T) (ho : o ≠ [eps]) (heps : (⟨X, [eps]⟩ : Production T) ∈ ps)
    (hcell : ∀ a, o ∈ candidates p.transitions X a → (candidates p.transitions X a).head? = some [eps])
    (tokens : List (Token L T)) (s s' : σ) (tree : Tree L T) (hr : Parses p tokens s (.ok tree) s') :
    ∃ w rest, tokens = w ++ rest ∧
      IsTree eps (ps.filter fun q => decide (q.input ≠ X ∨ q.output ≠ o)) init w tree.root := by
  obtain ⟨P, -⟩ := hp.parserOf hg
  obtain ⟨k, hk⟩ := C113_dead h eps init ps g hg p hp X hend tokens s s' tree hr
  have hnt : ∀ x, IsNonTerminal (ps.filter fun q => decide (q.input ≠ X ∨ q.output ≠ o)) x ↔ IsNonTerminal ps x := by
    intro x
    constructor
    · rintro ⟨q, hq, rfl⟩
      exact ⟨q, (List.mem_filter.1 hq).1, rfl⟩
    · rintro ⟨q, hq, rfl⟩
      by_cases hx : q.input = X
      · exact ⟨⟨X, [eps]⟩, List.mem_filter.2 ⟨heps, by simp [Ne.symm ho]⟩, hx.symm⟩
      · exact ⟨q, List.mem_filter.2 ⟨hq, by simp [hx]⟩, rfl⟩
  have hin : ∀ x a, ∀ b ∈ emptyFirst eps X (candidates p.transitions) x a,
      (⟨x, b⟩ : Production T) ∈ ps.filter fun q => decide (q.input ≠ X ∨ q.output ≠ o) := by
    intro x a b hb
    have hmem : b ∈ candidates p.transitions x a → (⟨x, b⟩ : Production T) ∈ ps := by
      intro hb
      rw [candidates_eq] at hb
      exact P.cand x a b hb
    refine List.mem_filter.2 ?_
    unfold emptyFirst at hb
    split at hb
    · rename_i hc
      obtain ⟨rfl, -⟩ := hc
      rw [List.mem_singleton.1 hb]
      exact ⟨heps, by simp [Ne.symm ho]⟩
    · rename_i hc
      refine ⟨hmem hb, ?_⟩
      simp only [decide_eq_true_eq]
      by_cases hx : x = X
      · subst hx
        refine .inr fun e => hc ⟨rfl, hcell a (e ▸ hb)⟩
      · exact .inl hx
  obtain ⟨w, h1, h2⟩ := DeadChoice.isTree_of_predicted hnt hin hk
  exact ⟨w, tokens.drop k, by simpa using h1, h2⟩

end

open ElseSym in
/-- The hypotheses are met: in the grammar with the dangling `else` last, the production for `else` is never used, although
`if other` is accepted. -/
theorem C113_example : ∃ g p tree, Grammar.new (HashOrder.id ElseSym) empty start elseLast = .ok g ∧
    Built (HashOrder.id ElseSym) g none (p : Parser Unit Unit ElseSym) ∧
    (∀ q ∈ elseLast, ∀ u v, q.output = u ++ tail :: v → v = []) ∧
    (⟨tail, [empty]⟩ : Production ElseSym) ∈ elseLast ∧ [els, stmt] ∈ candidates p.transitions tail els ∧
    (∀ a, [els, stmt] ∈ candidates p.transitions tail a → (candidates p.transitions tail a).head? = some [empty]) ∧
    Parses p [⟨none, iff⟩, ⟨none, other⟩, ⟨none, stop⟩] () (.ok tree) () := by
  refine ⟨_, _, _, rfl, Parser.built_of_eval (n := 12) rfl, ?_, by simp [elseLast], by decide,
    by intro a; cases a <;> decide, Parser.parse_returns (n := 40) rfl⟩
  intro q hq u v e
  simp only [elseLast, List.mem_cons, List.not_mem_nil, or_false] at hq
  rcases hq with rfl | rfl | rfl | rfl | rfl <;> (rcases u with _ | ⟨u1, _ | ⟨u2, _ | ⟨u3, u⟩⟩⟩ <;> simp at e)
  exact e.2.2

end Verif.Props
