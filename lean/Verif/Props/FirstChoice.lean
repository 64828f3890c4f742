import Verif.Proof.FirstChoice
import Verif.Props.Predictive

/-!
# Property C112: where the first candidate is always right
-/

namespace Verif.Props

open Verif.Spec

variable {σ τ L T : Type} [DecidableEq T]

theorem predicted_mono {eps : T} {ps ps' : List (Production T)} (hnt : ∀ x, IsNonTerminal ps' x ↔ IsNonTerminal ps x)
     {cand cand' : T → T → List (List T)}
    {tokens : List (Token L T)} (hc : ∀ x a, ∀ o ∈ cand x a, o ∈ cand' x a) {x : T} {i j : Nat} {n : Node L T}
    (h : Predicted eps ps cand tokens x i n j) : Predicted eps ps' cand' tokens x i n j :=
  Predicted.rec (eps := eps) (ps := ps) (cand := cand) (tokens := tokens)
    (motive_1 := fun x i n j _ => Predicted eps ps' cand' tokens x i n j)
    (motive_2 := fun xs i ns j _ => PredictedSeq eps ps' cand' tokens xs i ns j)
    (fun t i h1 h2 h3 => .leaf t i (fun hc => h1 ((hnt _).1 hc)) h2 h3) .eps
    (fun x i t out ns j h1 h2 h3 _ ih => .node x i t out ns j ((hnt _).2 h1) h2 (hc _ _ _ h3) ih)
    .nil (fun x xs i j k n ns _ _ h1 h2 => .cons x xs i j k n ns h1 h2) h

section
variable (h : HashOrder T) (eps init : T) (ps : List (Production T))
  (g : Grammar T) (hg : Grammar.new h eps init ps = .ok g)
include hg

/-- **C112.** If a tree is built by expanding each non-terminal by the first candidate of its cell, then it is the result,
with any solver, which is not asked, however many candidates the cells hold. -/
theorem C112_first_choice (p : Parser σ L T) (hp : AnyParser h g p) (hinit : IsNonTerminal ps init)
    (tokens : List (Token L T)) (n : Node L T) (k : Nat)
    (hn : Predicted eps ps (fun x a => (candidates p.transitions x a).take 1) tokens init 0 n k) (s : σ) :
    Parses p tokens s (.ok ⟨n⟩) s := by
  have P := hp.parserOf hg
  rw [candidates_eq] at hn
  obtain ⟨t, more, ht, hc⟩ := Parser.Recovery.choice_of_first (solver := p.syntaxErrorSolver) hinit P.grammar.wf hn s
  cases tokens with
  | nil => simp at ht
  | cons t' ts =>
    simp only [List.getElem?_cons_zero, Option.some.injEq] at ht
    subst ht
    exact ((Parser.Recovery.parse_iff_choice P t' ts s).1 _ _).2 ⟨_, hc, rfl⟩

/-- **C112**: there is at most one such tree. -/
theorem C112_first_choice_unique (p : Parser σ L T) (hp : AnyParser h g p) (hinit : IsNonTerminal ps init) (s : σ)
    (tokens : List (Token L T)) (n n' : Node L T) (k k' : Nat)
    (hn : Predicted eps ps (fun x a => (candidates p.transitions x a).take 1) tokens init 0 n k)
    (hn' : Predicted eps ps (fun x a => (candidates p.transitions x a).take 1) tokens init 0 n' k') : n = n' := by
  have := (Parser.Parses.det (C112_first_choice h eps init ps g hg p hp hinit tokens n k hn s)
    (C112_first_choice h eps init ps g hg p hp hinit tokens n' k' hn' s)).1
  simpa using this

end

/-- **C112**, more candidates behind: let two grammars have the same non-terminals (or be the same) and two parsers for them,
of any FIRST and FOLLOW sets, have tables, the first without conflicts, the second with the same candidates at the beginning
of its cells. What the first accepts the second accepts, with the same tree, whatever their solvers. -/
theorem C112_more_candidates (h h' : HashOrder T) (eps init : T) (ps ps' : List (Production T)) (g g' : Grammar T)
    (hg : Grammar.new h eps init ps = .ok g) (hg' : Grammar.new h' eps init ps' = .ok g')
    (hnt : ∀ x, IsNonTerminal ps' x ↔ IsNonTerminal ps x) (p : Parser σ L T) (hp : AnyParser h g p)
    (p' : Parser τ L T) (hp' : AnyParser h' g' p') (hcf : ConflictFree p.transitions)
    (hpre : ∀ x a, candidates p.transitions x a <+: candidates p'.transitions x a)
    (tokens : List (Token L T)) (s s' : σ) (tree : Tree L T) (hr : Parses p tokens s (.ok tree) s') (u : τ) :
    Parses p' tokens u (.ok tree) u := by
  obtain ⟨_, _, hinit, _⟩ := ok_tree (hp.parserOf hg) hr
  obtain ⟨k, hk⟩ := C70_ok_predicted h eps init ps g hg p hp tokens s s' tree hr
  refine C112_first_choice h' eps init ps' g' hg' p' hp' ((hnt _).2 hinit) tokens tree.root k (predicted_mono hnt ?_ hk) u
  intro x a o ho
  obtain ⟨more, hm⟩ := hpre x a
  have hl : (candidates p.transitions x a).length ≤ 1 := by
    rw [candidates_eq]
    exact Parser.conflictFree_length hcf x a
  match hc : candidates p.transitions x a, ho, hl with
  | [o'], ho, _ =>
    rw [← hm, hc]
    simpa using ho

end Verif.Props
