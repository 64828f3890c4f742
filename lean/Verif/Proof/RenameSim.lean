import Verif.Spec.Rename
import Verif.Proof.ParserSim

/-! # Simulation between a parser and the parser for the renamed grammar -/

set_option linter.unusedSectionVars false

namespace Verif

open Spec

section RenLemmas

variable {L T T' : Type} (f : T → T')

theorem renNodes_eq (l : List (Node L T)) : renNodes f l = l.map (renNode f) := by
  induction l with
  | nil => rfl
  | cons n l ih => simp [renNodes, ih]

theorem renFixedParts_eq (l : List (FixedProductionPart L T)) :
    renFixedParts f l = l.map (renFixedPart f) := by
  induction l with
  | nil => rfl
  | cons n l ih => simp [renFixedParts, ih]

theorem renFailedProductions_eq (l : List (FailedProduction L T)) :
    renFailedProductions f l = l.map (renFailedProduction f) := by
  induction l with
  | nil => rfl
  | cons n l ih => simp [renFailedProductions, ih]

end RenLemmas

namespace Parser.Ren

variable {σ L T T' : Type} [DecidableEq T] [DecidableEq T']

/-! ## Maps of the internal types -/

def renPS (f : T → T') (s : ParsingState L T) : ParsingState L T' :=
  ⟨s.initialTokenPosition, s.finalTokenPosition, s.prodIterOption.map (List.map (List.map f)), renNode f s.node⟩

def renFS (f : T → T') (s : FixedState L T) : FixedState L T' :=
  ⟨s.finalTokenPosition, renFixedSymbol f s.fixedSymbol⟩

def renState (f : T → T') : PState L T → PState L T'
  | .parsing s => .parsing (renPS f s)
  | .fixed s => .fixed (renFS f s)

def renSym (f : T → T') : ParseSymbolResult L T → ParseSymbolResult L T'
  | .ok s => .ok (renPS f s)
  | .err e => .err (renFailedSymbol f e)
  | .fix s => .fix (renFS f s)

def renProd (f : T → T') : ParseProductionResult L T → ParseProductionResult L T'
  | .ok n => .ok (renNode f n)
  | .err e => .err (renFailedProduction f e)
  | .fix p => .fix (renFixedProduction f p)

def renProdPos (f : T → T') (r : ParseProductionResult L T × Nat) :
    ParseProductionResult L T' × Nat := (renProd f r.1, r.2)

def renPop (f : T → T') (r : List (PState L T) × Option (List (PState L T))) :
    List (PState L T') × Option (List (PState L T')) :=
  (r.1.map (renState f), r.2.map (List.map (renState f)))

def renTry (f : T → T') : Except (List (FailedProduction L T)) (ParseSymbolResult L T) →
    Except (List (FailedProduction L T')) (ParseSymbolResult L T')
  | .ok r => .ok (renSym f r)
  | .error l => .error (l.map (renFailedProduction f))

variable {eps init : T} {ps : List (Production T)} {p : Parser σ L T} {p' : Parser σ L T'}
  {tokens : List (Token L T)} {f : T → T'} 

/-- The second parser is the first with the symbols renamed, but for the solver. -/
structure RenAgree (f : T → T') (p : Parser σ L T) (p' : Parser σ L T') : Prop where
  inj : ∀ x y, f x = f y → x = y
  eps_eq : p'.grammar.epsilonSymbol = f p.grammar.epsilonSymbol
  init_eq : p'.grammar.initialSymbol = f p.grammar.initialSymbol
  nt_eq : ∀ x, p'.grammar.isNonTerminal (f x) = p.grammar.isNonTerminal x
  cand_eq : ∀ x a, p'.getTokenProductions (f x) (f a) =
    (p.getTokenProductions x a).map (List.map f)

/-- Recursive calls correspond. -/
def RecSim (ps : List (Production T)) (p : Parser σ L T) (tokens : List (Token L T)) (f : T → T')
    (rec : Rec σ L T) (rec' : Rec σ L T') : Prop :=
  ∀ x pos outs sg, IsNonTerminal ps x → Pre p tokens x pos outs →
    Sim Eq (renSym f) (rec x pos outs sg)
      (rec' (f x) pos (outs.map (List.map f)) sg)

theorem parseTerminalSymbol_ren (A : RenAgree f p p') (x : T) (pos : Nat) :
    p'.parseTerminalSymbol (f x) (tokens.map (renToken f)) pos =
      renSym f (p.parseTerminalSymbol x tokens pos) := by
  unfold parseTerminalSymbol parseNonEpsilonTerminalSymbol
  rw [A.eps_eq]
  by_cases he : p.grammar.epsilonSymbol = x
  · rw [if_pos he, if_pos (by rw [he])]
    rfl
  · rw [if_neg he, if_neg (fun h => he (A.inj _ _ h)), List.getElem?_map]
    cases tokens[pos]? with
    | none => rfl
    | some t =>
      simp only [Option.map_some]
      by_cases hx : x = t.tType
      · rw [if_pos hx, if_pos (by rw [hx]; rfl)]
        rfl
      · rw [if_neg hx, if_neg (show ¬ f x = (renToken f t).tType from fun h => hx (A.inj _ _ h))]
        rfl

theorem parseProductionSymbol_ren (P : ParserOf eps init ps p) (A : RenAgree f p p') {rec : Rec σ L T}
    {rec' : Rec σ L T'} (hrec : RecSim ps p tokens f rec rec') {sg : Bool} (x : T)
    (pos : Nat) :
    Sim Eq (renSym f) (parseProductionSymbol p tokens rec x pos sg)
      (parseProductionSymbol p' (tokens.map (renToken f)) rec' (f x) pos sg) := by
  unfold parseProductionSymbol
  rw [A.nt_eq]
  by_cases hx : p.grammar.isNonTerminal x = true
  · rw [if_pos hx, if_pos hx]
    unfold parseProductionNonTerminal
    rw [List.getElem?_map]
    cases ht : tokens[pos]? with
    | none => exact .panic _
    | some t =>
      simp only [Option.map_some]
      rw [show (renToken f t).tType = f t.tType from rfl, A.cand_eq]
      exact hrec _ _ _ _ ((isNT_iff P x).1 hx) ⟨t, ht, List.suffix_refl _⟩
  · rw [if_neg hx, if_neg hx]
    exact .pure (parseTerminalSymbol_ren A x pos).symm

theorem popStates_ren {rec : Rec σ L T} {rec' : Rec σ L T'}
    (hrec : RecSim ps p tokens f rec rec') {sg : Bool} {pos0 : Nat}
    {xs : List T} {st : List (PState L T)} {q : Nat} (hst : StackOk eps ps p tokens pos0 xs st q)
    (acc : List (PState L T)) :
    Sim Eq (renPop f) (popStates rec sg st acc)
      (popStates rec' sg (st.map (renState f)) (acc.map (renState f))) := by
  induction hst generalizing acc with
  | nil =>
    refine .pure ?_
    simp [renPop]
  | fixed hx hf hs hsym hq hst ih =>
    rename_i x xs st q s0
    have := ih (acc ++ [.fixed s0])
    rw [List.map_append] at this
    exact this
  | parsing hs hi hst ih =>
    rename_i x xs st q s0
    simp only [List.map_cons, renState]
    unfold popStates
    rw [show (renPS f s0).prodIterOption = s0.prodIterOption.map (List.map (List.map f)) from rfl]
    by_cases hx : IsNonTerminal ps x
    · obtain ⟨it, hit, hpre⟩ := hi.1 hx
      simp only [hit, Option.map_some]
      have hl : s0.node.token.tType = x := hs.tree.label
      have hl' : (renPS f s0).node.token.tType = f x := by
        rw [← hl]
        cases h : s0.node
        simp [renPS, h, renNode, Node.token, renToken]
      rw [hl, hl', show (renPS f s0).initialTokenPosition = s0.initialTokenPosition from rfl]
      refine .bind (hrec _ _ _ _ hx hpre) ?_
      intro r s s1 _
      cases r with
      | ok s' => exact .pure rfl
      | err e => exact ih acc
      | fix s' => exact ih acc
    · simp only [hi.2 hx, Option.map_none]
      have := ih (acc ++ [.parsing s0])
      rw [List.map_append] at this
      exact this

theorem renState_isFixed (s : PState L T) : (renState f s).isFixed = s.isFixed := by
  cases s <;> rfl

theorem any_renState_isFixed (l : List (PState L T)) :
    (l.map (renState f)).any PState.isFixed = l.any PState.isFixed := by
  rw [List.any_map]
  congr 1
  funext s
  exact renState_isFixed s

theorem renState_final (s : PState L T) :
    (renState f s).finalTokenPosition = s.finalTokenPosition := by
  cases s <;> rfl

theorem buildFailedSymbol_ren (fs : FailedSymbol L T) (output : List T) (l : List (PState L T)) :
    buildFailedSymbol (renFailedSymbol f fs) (output.map f) (l.map (renState f)) =
      renProd f (buildFailedSymbol fs output l) := by
  unfold buildFailedSymbol
  simp only [renProd, renFailedProduction, List.map_map, List.length_map]
  congr 2
  · apply List.map_congr_left
    intro s _
    cases s <;> rfl
  · rw [List.map_drop]

theorem statesToNodes_ren (l : List (PState L T)) :
    statesToNodes (l.map (renState f)) =
      match statesToNodes l with
      | .ok ns => .ok (ns.map (renNode f))
      | .panic e => .panic e
      | .fuel => .fuel := by
  induction l with
  | nil => rfl
  | cons s l ih =>
    cases s with
    | fixed s => rfl
    | parsing s =>
      simp only [List.map_cons, renState, statesToNodes, ih]
      cases statesToNodes l with
      | ok ns => rfl
      | panic e => rfl
      | fuel => rfl

theorem buildNode_ren (x : T) (l : List (PState L T)) :
    Sim (σ := σ) Eq (renProd f) (lift (buildNode x l)) (lift (buildNode (f x) (l.map (renState f)))) := by
  unfold buildNode
  rw [any_renState_isFixed]
  split
  · intro s s' hR
    refine ⟨s', ?_, hR⟩
    simp only [lift, renProd, renFixedProduction, renFixedParts_eq, List.map_map]
    congr 5
    funext s
    cases s <;> rfl
  · rw [statesToNodes_ren]
    intro s s' hR
    cases statesToNodes l with
    | ok ns =>
      refine ⟨s', ?_, hR⟩
      simp only [lift, renProd, Out.bind_ok, renNode, renNodes_eq]
      rfl
    | panic e => rfl
    | fuel => rfl

theorem productionLoop_ren (P : ParserOf eps init ps p) (A : RenAgree f p p') {rec : Rec σ L T}
    {rec' : Rec σ L T'} (hok : RecOk eps ps p tokens rec) (hrec : RecSim ps p tokens f rec rec')
    {sg : Bool} (x : T) {out : List T} {pos0 : Nat} (n : Nat) {xs : List T}
    {st : List (PState L T)} {q : Nat} (hst : StackOk eps ps p tokens pos0 xs st q)
    (hxs : ∃ ys, out = xs.reverse ++ ys) :
    Sim Eq (renProdPos f) (productionLoop p tokens rec x out sg n st q)
      (productionLoop p' (tokens.map (renToken f)) rec' (f x) (out.map f) sg n (st.map (renState f)) q) := by
  induction n generalizing xs st q with
  | zero => exact .fuel
  | succ n ih =>
    obtain ⟨ys, hys⟩ := hxs
    have hlen := hst.length
    unfold productionLoop
    rw [List.length_map, List.length_map]
    split
    · rename_i hlt
      cases ys with
      | nil => rw [hys] at hlt; simp at hlt; omega
      | cons y ys =>
        have hget : out[st.length]? = some y := by
          rw [hys, List.getElem?_append_right (by simp; omega)]
          simp [hlen]
        simp only [hget, List.getElem?_map, Option.map_some]
        have hys' : out = (y :: xs).reverse ++ ys := by simp [hys]
        refine .bind (parseProductionSymbol_ren P A hrec y q) ?_
        intro r s s1 e
        have hsym := parseProductionSymbol_spec P hok e
        rcases hsym with ⟨s2, rfl, ho, hi⟩ | ⟨fs, rfl, hf⟩ | ⟨s2, rfl, hy, h1, h2, h3, h4⟩
        · exact ih (.parsing ho hi hst) ⟨ys, hys'⟩
        · simp only [renSym]
          refine .bind (popStates_ren hrec hst []) ?_
          rintro ⟨st', o⟩ s2 s3 e3
          rcases popStates_spec hok hst e3 with
            ⟨parsed, h1, h2⟩ | ⟨h1, xs', s3, st3, above, q', h2, h3, h4⟩
          · simp only [List.reverse_nil, List.append_nil] at h1
            subst h1
            refine .pure ?_
            simp only [renProdPos, ← buildFailedSymbol_ren]
          · simp only at h1 h2
            subst h1 h2
            simp only [renPop, List.map_cons, Option.map_none, renState_final]
            rw [← h4.top]
            refine ih h4 ⟨above.reverse ++ y :: ys, ?_⟩
            rw [hys, h3]; simp
        · exact ih (.fixed hy h1 h2 h3 h4 hst) ⟨ys, hys'⟩
    · rw [← List.map_reverse]
      refine .bind (buildNode_ren x st.reverse) ?_
      intro r s s1 _
      exact .pure rfl

theorem tryParseProductionsLoop_ren (P : ParserOf eps init ps p) (A : RenAgree f p p') {rec : Rec σ L T}
    {rec' : Rec σ L T'} (hok : RecOk eps ps p tokens rec) (hrec : RecSim ps p tokens f rec rec')
    {sg : Bool} (n : Nat) (x : T) (pos : Nat) (outs : List (List T))
    (failed : List (FailedProduction L T)) :
    Sim Eq (renTry f) (tryParseProductionsLoop p tokens rec n x pos sg outs failed)
      (tryParseProductionsLoop p' (tokens.map (renToken f)) rec' n (f x) pos sg (outs.map (List.map f))
        (failed.map (renFailedProduction f))) := by
  induction outs generalizing failed with
  | nil => exact .pure rfl
  | cons o outs ih =>
    unfold tryParseProductionsLoop
    refine .bind (productionLoop_ren P A hok hrec x n (pos0 := pos) .nil ⟨o, rfl⟩) ?_
    rintro ⟨r, q⟩ s s1 _
    cases r with
    | ok node => exact .pure rfl
    | err fp =>
      have := ih (failed ++ [fp])
      rw [List.map_append] at this
      exact this
    | fix fp => exact .pure rfl

/-- What is asked of the solvers. -/
def FixSim (eps : T) (ps : List (Production T)) (p : Parser σ L T) (p' : Parser σ L T')
    (tokens : List (Token L T)) (f : T → T') : Prop :=
  ∀ x pos outs sg failed, IsNonTerminal ps x ∨ outs = [] → Pre p tokens x pos outs →
    FailedProdsOk eps ps p.syntaxErrorSolver.isSome p.getTokenProductions tokens outs failed →
    Sim Eq (Option.map (renFix f))
      (tryFixProductions p tokens pos sg (isChildSinglePath sg outs) failed)
      (tryFixProductions p' (tokens.map (renToken f)) pos sg (isChildSinglePath sg outs)
        (failed.map (renFailedProduction f)))

theorem fixOptionToResult_ren (failed : List (FailedProduction L T)) (fx : Option (FixResult L T))
    (x : T) :
    fixOptionToResult (failed.map (renFailedProduction f)) (fx.map (renFix f)) (f x) =
      renSym f (fixOptionToResult failed fx x) := by
  cases fx with
  | some r => rfl
  | none => simp [fixOptionToResult, renSym, renFailedSymbol, renFailedProductions_eq]

theorem innerParse_ren (P : ParserOf eps init ps p) (A : RenAgree f p p')
    (hfix : FixSim eps ps p p' tokens f) (n : Nat) (x : T) (pos : Nat) (outs : List (List T))
    (sg : Bool) (hpre : Pre p tokens x pos outs) :
    Sim Eq (renSym f) (innerParse p tokens n x pos outs sg)
      (innerParse p' (tokens.map (renToken f)) n (f x) pos (outs.map (List.map f)) sg) := by
  induction n generalizing x pos outs sg with
  | zero => exact .fuel
  | succ n ih =>
    have hok : RecOk eps ps p tokens (innerParse p tokens n) :=
      fun x pos outs sg s r s' _ ho e => innerParse_spec P tokens n ho e
    unfold innerParse
    rw [show isChildSinglePath sg (outs.map (List.map f)) = isChildSinglePath sg outs by
      simp [isChildSinglePath]]
    refine .bind (tryParseProductionsLoop_ren P A hok (fun x pos outs sg _ h2 => ih x pos outs sg h2)
      n x pos outs []) ?_
    intro r s s1 e
    have hr := tryParseProductionsLoop_spec P hok (fun o ho => hpre.mem P ho) (done := []) .nil e
    cases r with
    | ok r' => exact .pure rfl
    | error failed =>
      simp only [renTry]
      simp only [List.nil_append] at hr
      refine .bind (hfix x pos outs sg failed ?_ hpre hr) ?_
      · cases outs with
        | nil => exact .inr rfl
        | cons o os => exact .inl ⟨_, hpre.mem P (List.mem_cons_self), rfl⟩
      · intro fx s s1 _
        exact .pure (fixOptionToResult_ren failed fx x).symm

/-- The whole run. -/
theorem parseFromTokens_ren (P : ParserOf eps init ps p) (A : RenAgree f p p')
    (hfix : FixSim eps ps p p' tokens f) (n : Nat) :
    Sim Eq (renResult f) (parseFromTokens p n tokens)
      (parseFromTokens p' n (tokens.map (renToken f))) := by
  unfold parseFromTokens
  rw [List.length_map]
  split
  · exact .panic _
  · rw [List.getElem?_map]
    cases ht : tokens[0]? with
    | none => exact .panic _
    | some t =>
      simp only [Option.map_some]
      rw [show (renToken f t).tType = f t.tType from rfl, A.init_eq, A.cand_eq]
      refine .bind (innerParse_ren P A hfix n _ _ _ _ ⟨t, ht, List.suffix_refl _⟩) ?_
      intro r s s1 _
      refine .pure ?_
      cases r with
      | ok s =>
        simp [renSym, toParseResult, renResult, renPS]
      | err e => rfl
      | fix s => rfl

end Parser.Ren

end Verif
