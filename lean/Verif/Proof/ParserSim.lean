import Verif.Spec.MapLex
import Verif.Proof.ParserHoare

/-! # Simulation between two parsers -/

set_option linter.unusedSectionVars false

namespace Verif

open Spec

/-! ## The lexeme maps -/

section MapLemmas

variable {L L' T : Type} (f : L → Option L')

theorem mapNodes_eq (l : List (Node L T)) : mapNodes f l = l.map (mapNode f) := by
  induction l with
  | nil => rfl
  | cons n l ih => simp [mapNodes, ih]

theorem mapFixedParts_eq (l : List (FixedProductionPart L T)) :
    mapFixedParts f l = l.map (mapFixedPart f) := by
  induction l with
  | nil => rfl
  | cons n l ih => simp [mapFixedParts, ih]

theorem mapFailedProductions_eq (l : List (FailedProduction L T)) :
    mapFailedProductions f l = l.map (mapFailedProduction f) := by
  induction l with
  | nil => rfl
  | cons n l ih => simp [mapFailedProductions, ih]

theorem mapToken_id (t : Token L T) : mapToken some t = t := by
  cases t; simp [mapToken]

mutual
theorem mapNode_id : ∀ n : Node L T, mapNode some n = n
  | .mk cs t => by rw [mapNode, mapNodes_id cs, mapToken_id]
theorem mapNodes_id : ∀ l : List (Node L T), mapNodes some l = l
  | [] => rfl
  | n :: ns => by rw [mapNodes, mapNode_id n, mapNodes_id ns]
end

mutual
theorem mapFixedSymbol_id : ∀ s : FixedSymbol L T, mapFixedSymbol some s = s
  | .mk p x => by rw [mapFixedSymbol, mapFixedProduction_id p]
theorem mapFixedProduction_id : ∀ p : FixedProduction L T, mapFixedProduction some p = p
  | .mk parts => by rw [mapFixedProduction, mapFixedParts_id parts]
theorem mapFixedPart_id : ∀ p : FixedProductionPart L T, mapFixedPart some p = p
  | .ok n => by rw [mapFixedPart, mapNode_id n]
  | .fixed s => by rw [mapFixedPart, mapFixedSymbol_id s]
  | .gap g => by cases g; simp [mapFixedPart, mapGap]
theorem mapFixedParts_id : ∀ l : List (FixedProductionPart L T), mapFixedParts some l = l
  | [] => rfl
  | p :: ps => by rw [mapFixedParts, mapFixedPart_id p, mapFixedParts_id ps]
end

theorem mapParsed_id (p : ProductionParsedSymbol L T) : mapParsed some p = p := by
  cases p <;> simp [mapParsed, mapNode_id, mapFixedSymbol_id]

theorem map_mapParsed_id (l : List (ProductionParsedSymbol L T)) : l.map (mapParsed some) = l := by
  have : mapParsed (L := L) (T := T) some = id := funext mapParsed_id
  rw [this, List.map_id]

mutual
theorem mapFailedSymbol_id : ∀ s : FailedSymbol L T, mapFailedSymbol some s = s
  | .mk fps x => by rw [mapFailedSymbol, mapFailedProductions_id fps]
theorem mapFailedProduction_id : ∀ p : FailedProduction L T, mapFailedProduction some p = p
  | .mk fs parsed pending => by rw [mapFailedProduction, mapFailedSymbol_id fs, map_mapParsed_id]
theorem mapFailedProductions_id : ∀ l : List (FailedProduction L T), mapFailedProductions some l = l
  | [] => rfl
  | p :: ps => by rw [mapFailedProductions, mapFailedProduction_id p, mapFailedProductions_id ps]
end

theorem mapFix_id (r : FixResult L T) : mapFix some r = r := by
  cases r; simp [mapFix, mapFixedProduction_id]

theorem mapResult_id (r : ParseResult L T) : mapResult some r = r := by
  cases r <;> simp [mapResult, mapNode_id, mapFailedSymbol_id, mapFixedSymbol_id]

theorem map_mapFailedProduction_id (l : List (FailedProduction L T)) :
    l.map (mapFailedProduction some) = l := by
  rw [← mapFailedProductions_eq, mapFailedProductions_id]

theorem map_mapToken_id (l : List (Token L T)) : l.map (mapToken some) = l := by
  have : mapToken (L := L) (T := T) some = id := funext mapToken_id
  rw [this, List.map_id]

end MapLemmas

/-- Run side by side, from related states the two computations have the same kind of outcome, with
results related by `φ`. -/
def Sim {σ τ α β : Type} (R : σ → τ → Prop) (φ : α → β) (x : M σ α) (y : M τ β) : Prop :=
  ∀ s s', R s s' →
    match x s with
    | .ok (a, s1) => ∃ s1', y s' = .ok (φ a, s1') ∧ R s1 s1'
    | .panic e => y s' = .panic e
    | .fuel => y s' = .fuel

namespace Sim

variable {σ τ α β α' β' : Type} {R : σ → τ → Prop}

theorem pure {φ : α → β} {a : α} {b : β} (h : φ a = b) :
    Sim R φ (Pure.pure a : M σ α) (Pure.pure b : M τ β) := by
  intro s s' hR
  simp only [M.pure_apply]
  exact ⟨s', by rw [h], hR⟩

theorem panic {φ : α → β} (e : Panic) : Sim R φ (M.panic e : M σ α) (M.panic e : M τ β) :=
  fun _ _ _ => rfl

theorem fuel {φ : α → β} : Sim R φ (M.fuel : M σ α) (M.fuel : M τ β) := fun _ _ _ => rfl

theorem bind {φ : α → β} {ψ : α' → β'} {x : M σ α} {y : M τ β} {f : α → M σ α'} {g : β → M τ β'}
    (h : Sim R φ x y) (hf : ∀ a s s1, x s = .ok (a, s1) → Sim R ψ (f a) (g (φ a))) :
    Sim R ψ (x >>= f) (y >>= g) := by
  intro s s' hR
  have h1 := h s s' hR
  rw [M.bind_apply, M.bind_apply]
  cases e : x s with
  | ok r =>
    obtain ⟨a, s1⟩ := r
    rw [e] at h1
    obtain ⟨s1', h2, h3⟩ := h1
    rw [h2]
    exact hf a s s1 e s1 s1' h3
  | panic q => rw [e] at h1; rw [h1]
  | fuel => rw [e] at h1; rw [h1]

end Sim

namespace Parser

variable {σ τ L L' T : Type} [DecidableEq T]

/-! ## Maps of the internal types -/

def mapPS (f : L → Option L') (s : ParsingState L T) : ParsingState L' T :=
  ⟨s.initialTokenPosition, s.finalTokenPosition, s.prodIterOption, mapNode f s.node⟩

def mapFS (f : L → Option L') (s : FixedState L T) : FixedState L' T :=
  ⟨s.finalTokenPosition, mapFixedSymbol f s.fixedSymbol⟩

def mapState (f : L → Option L') : PState L T → PState L' T
  | .parsing s => .parsing (mapPS f s)
  | .fixed s => .fixed (mapFS f s)

def mapSym (f : L → Option L') : ParseSymbolResult L T → ParseSymbolResult L' T
  | .ok s => .ok (mapPS f s)
  | .err e => .err (mapFailedSymbol f e)
  | .fix s => .fix (mapFS f s)

def mapProd (f : L → Option L') : ParseProductionResult L T → ParseProductionResult L' T
  | .ok n => .ok (mapNode f n)
  | .err e => .err (mapFailedProduction f e)
  | .fix p => .fix (mapFixedProduction f p)

def mapProdPos (f : L → Option L') (r : ParseProductionResult L T × Nat) :
    ParseProductionResult L' T × Nat := (mapProd f r.1, r.2)

def mapPop (f : L → Option L') (r : List (PState L T) × Option (List (PState L T))) :
    List (PState L' T) × Option (List (PState L' T)) :=
  (r.1.map (mapState f), r.2.map (List.map (mapState f)))

def mapTry (f : L → Option L') : Except (List (FailedProduction L T)) (ParseSymbolResult L T) →
    Except (List (FailedProduction L' T)) (ParseSymbolResult L' T)
  | .ok r => .ok (mapSym f r)
  | .error l => .error (l.map (mapFailedProduction f))

variable {eps init : T} {ps : List (Production T)} {p : Parser σ L T} {p' : Parser τ L' T}
  {tokens : List (Token L T)} {f : L → Option L'} {R : σ → τ → Prop} {Q : T → Nat → Bool → Prop}

/-- The two parsers agree on everything but the solver. -/
structure Agree (p : Parser σ L T) (p' : Parser τ L' T) : Prop where
  eps_eq : p'.grammar.epsilonSymbol = p.grammar.epsilonSymbol
  init_eq : p'.grammar.initialSymbol = p.grammar.initialSymbol
  nt_eq : ∀ x, p'.grammar.isNonTerminal x = p.grammar.isNonTerminal x
  cand_eq : ∀ x a, p'.getTokenProductions x a = p.getTokenProductions x a

/-- Recursive calls correspond. -/
def RecSim (ps : List (Production T)) (p : Parser σ L T) (tokens : List (Token L T)) (f : L → Option L')
    (R : σ → τ → Prop) (Q : T → Nat → Bool → Prop) (rec : Rec σ L T) (rec' : Rec τ L' T) : Prop :=
  ∀ x pos outs sg, Q x pos sg → IsNonTerminal ps x → Pre p tokens x pos outs →
    Sim R (mapSym f) (rec x pos outs sg) (rec' x pos outs sg)

theorem parseTerminalSymbol_map (A : Agree p p') (x : T) (pos : Nat) :
    p'.parseTerminalSymbol x (tokens.map (mapToken f)) pos =
      mapSym f (p.parseTerminalSymbol x tokens pos) := by
  unfold parseTerminalSymbol parseNonEpsilonTerminalSymbol
  rw [A.eps_eq]
  split
  · rfl
  · rw [List.getElem?_map]
    cases tokens[pos]? with
    | none => rfl
    | some t =>
      simp only [Option.map_some]
      by_cases hx : x = t.tType
      · rw [if_pos hx, if_pos (by exact hx)]
        rfl
      · rw [if_neg hx, if_neg (by exact hx)]
        rfl

theorem parseProductionSymbol_sim (P : ParserOf eps init ps p) (A : Agree p p') {rec : Rec σ L T}
    {rec' : Rec τ L' T} (hrec : RecSim ps p tokens f R Q rec rec') {sg : Bool} (x : T)
    (pos : Nat) (hsg : Q x pos sg) :
    Sim R (mapSym f) (parseProductionSymbol p tokens rec x pos sg)
      (parseProductionSymbol p' (tokens.map (mapToken f)) rec' x pos sg) := by
  unfold parseProductionSymbol
  rw [A.nt_eq]
  by_cases hx : p.grammar.isNonTerminal x = true
  · rw [if_pos hx, if_pos hx]
    unfold parseProductionNonTerminal
    rw [List.getElem?_map]
    cases ht : tokens[pos]? with
    | none => exact .panic _
    | some t =>
      simp only [Option.map_some]
      rw [show (mapToken f t).tType = t.tType from rfl, A.cand_eq]
      exact hrec _ _ _ _ hsg ((isNT_iff P x).1 hx) ⟨t, ht, List.suffix_refl _⟩
  · rw [if_neg hx, if_neg hx]
    exact .pure (parseTerminalSymbol_map A x pos).symm

theorem popStates_sim {rec : Rec σ L T} {rec' : Rec τ L' T}
    (hrec : RecSim ps p tokens f R Q rec rec') {sg : Bool} {pos0 : Nat}
    {xs : List T} {st : List (PState L T)} {q : Nat} (hst : StackOk eps ps p tokens pos0 xs st q)
    (hsg : ∀ y ∈ xs, ∀ q, Q y q sg)
    (acc : List (PState L T)) :
    Sim R (mapPop f) (popStates rec sg st acc)
      (popStates rec' sg (st.map (mapState f)) (acc.map (mapState f))) := by
  induction hst generalizing acc with
  | nil =>
    refine .pure ?_
    simp [mapPop]
  | fixed hx hf hs hsym hq hst ih =>
    rename_i x xs st q s0
    have := ih (fun y h => hsg y (List.mem_cons_of_mem _ h)) (acc ++ [.fixed s0])
    rw [List.map_append] at this
    exact this
  | parsing hs hi hst ih =>
    rename_i x xs st q s0
    have ih := ih (fun y h => hsg y (List.mem_cons_of_mem _ h))
    simp only [List.map_cons, mapState]
    unfold popStates
    rw [show (mapPS f s0).prodIterOption = s0.prodIterOption from rfl]
    by_cases hx : IsNonTerminal ps x
    · obtain ⟨it, hit, hpre⟩ := hi.1 hx
      simp only [hit]
      have hl : s0.node.token.tType = x := hs.tree.label
      have hl' : (mapPS f s0).node.token.tType = x := by
        rw [← hl]
        cases h : s0.node
        simp [mapPS, h, mapNode, Node.token, mapToken]
      rw [hl, hl', show (mapPS f s0).initialTokenPosition = s0.initialTokenPosition from rfl]
      refine .bind (hrec _ _ _ _ (hsg x List.mem_cons_self _) hx hpre) ?_
      intro r s s1 _
      cases r with
      | ok s' => exact .pure rfl
      | err e => exact ih acc
      | fix s' => exact ih acc
    · simp only [hi.2 hx]
      have := ih (acc ++ [.parsing s0])
      rw [List.map_append] at this
      exact this

theorem mapState_isFixed (s : PState L T) : (mapState f s).isFixed = s.isFixed := by
  cases s <;> rfl

theorem any_mapState_isFixed (l : List (PState L T)) :
    (l.map (mapState f)).any PState.isFixed = l.any PState.isFixed := by
  rw [List.any_map]
  congr 1
  funext s
  exact mapState_isFixed s

theorem mapState_final (s : PState L T) :
    (mapState f s).finalTokenPosition = s.finalTokenPosition := by
  cases s <;> rfl

theorem buildFailedSymbol_map (fs : FailedSymbol L T) (output : List T) (l : List (PState L T)) :
    buildFailedSymbol (mapFailedSymbol f fs) output (l.map (mapState f)) =
      mapProd f (buildFailedSymbol fs output l) := by
  unfold buildFailedSymbol
  simp only [mapProd, mapFailedProduction, List.map_map, List.length_map]
  congr 2
  apply List.map_congr_left
  intro s _
  cases s <;> rfl

theorem statesToNodes_map (l : List (PState L T)) :
    statesToNodes (l.map (mapState f)) =
      match statesToNodes l with
      | .ok ns => .ok (ns.map (mapNode f))
      | .panic e => .panic e
      | .fuel => .fuel := by
  induction l with
  | nil => rfl
  | cons s l ih =>
    cases s with
    | fixed s => rfl
    | parsing s =>
      simp only [List.map_cons, mapState, statesToNodes, ih]
      cases statesToNodes l with
      | ok ns => rfl
      | panic e => rfl
      | fuel => rfl

theorem buildNode_sim (x : T) (l : List (PState L T)) :
    Sim R (mapProd f) (lift (buildNode x l)) (lift (buildNode x (l.map (mapState f)))) := by
  unfold buildNode
  rw [any_mapState_isFixed]
  split
  · intro s s' hR
    refine ⟨s', ?_, hR⟩
    simp only [lift, mapProd, mapFixedProduction, mapFixedParts_eq, List.map_map]
    congr 5
    funext s
    cases s <;> rfl
  · rw [statesToNodes_map]
    intro s s' hR
    cases statesToNodes l with
    | ok ns =>
      refine ⟨s', ?_, hR⟩
      simp only [lift, mapProd, Out.bind_ok, mapNode, mapNodes_eq]
      rfl
    | panic e => rfl
    | fuel => rfl

theorem productionLoop_sim (P : ParserOf eps init ps p) (A : Agree p p') {rec : Rec σ L T}
    {rec' : Rec τ L' T} (hok : RecOk eps ps p tokens rec) (hrec : RecSim ps p tokens f R Q rec rec')
    {sg : Bool} (x : T) {out : List T} (hsg : ∀ y ∈ out, ∀ q, Q y q sg) {pos0 : Nat} (n : Nat) {xs : List T}
    {st : List (PState L T)} {q : Nat} (hst : StackOk eps ps p tokens pos0 xs st q)
    (hxs : ∃ ys, out = xs.reverse ++ ys) :
    Sim R (mapProdPos f) (productionLoop p tokens rec x out sg n st q)
      (productionLoop p' (tokens.map (mapToken f)) rec' x out sg n (st.map (mapState f)) q) := by
  induction n generalizing xs st q with
  | zero => exact .fuel
  | succ n ih =>
    obtain ⟨ys, hys⟩ := hxs
    have hlen := hst.length
    unfold productionLoop
    rw [List.length_map]
    split
    · rename_i hlt
      cases ys with
      | nil => rw [hys] at hlt; simp at hlt; omega
      | cons y ys =>
        have hget : out[st.length]? = some y := by
          rw [hys, List.getElem?_append_right (by simp; omega)]
          simp [hlen]
        simp only [hget]
        have hys' : out = (y :: xs).reverse ++ ys := by simp [hys]
        refine .bind (parseProductionSymbol_sim P A hrec y q (hsg y (by simp [hys]) q)) ?_
        intro r s s1 e
        have hsym := parseProductionSymbol_spec P hok e
        rcases hsym with ⟨s2, rfl, ho, hi⟩ | ⟨fs, rfl, hf⟩ | ⟨s2, rfl, hy, h1, h2, h3, h4⟩
        · exact ih (.parsing ho hi hst) ⟨ys, hys'⟩
        · simp only [mapSym]
          refine .bind (popStates_sim hrec hst (fun z h => hsg z (by simp [hys, h])) []) ?_
          rintro ⟨st', o⟩ s2 s3 e3
          rcases popStates_spec hok hst e3 with
            ⟨parsed, h1, h2⟩ | ⟨h1, xs', s3, st3, above, q', h2, h3, h4⟩
          · simp only [List.reverse_nil, List.append_nil] at h1
            subst h1
            refine .pure ?_
            simp only [mapProdPos, ← buildFailedSymbol_map]
          · simp only at h1 h2
            subst h1 h2
            simp only [mapPop, List.map_cons, Option.map_none, mapState_final]
            rw [← h4.top]
            refine ih h4 ⟨above.reverse ++ y :: ys, ?_⟩
            rw [hys, h3]; simp
        · exact ih (.fixed hy h1 h2 h3 h4 hst) ⟨ys, hys'⟩
    · rw [← List.map_reverse]
      refine .bind (buildNode_sim x st.reverse) ?_
      intro r s s1 _
      exact .pure rfl

theorem tryParseProductionsLoop_sim (P : ParserOf eps init ps p) (A : Agree p p') {rec : Rec σ L T}
    {rec' : Rec τ L' T} (hok : RecOk eps ps p tokens rec) (hrec : RecSim ps p tokens f R Q rec rec')
    {sg : Bool} (n : Nat) (x : T) (pos : Nat) (outs : List (List T))
    (hsg : ∀ o ∈ outs, ∀ y ∈ o, ∀ q, Q y q sg) (failed : List (FailedProduction L T)) :
    Sim R (mapTry f) (tryParseProductionsLoop p tokens rec n x pos sg outs failed)
      (tryParseProductionsLoop p' (tokens.map (mapToken f)) rec' n x pos sg outs
        (failed.map (mapFailedProduction f))) := by
  induction outs generalizing failed with
  | nil => exact .pure rfl
  | cons o outs ih =>
    have ih := ih (fun o h => hsg o (List.mem_cons_of_mem _ h))
    unfold tryParseProductionsLoop
    refine .bind (productionLoop_sim P A hok hrec x (hsg o List.mem_cons_self) n (pos0 := pos) .nil ⟨o, rfl⟩) ?_
    rintro ⟨r, q⟩ s s1 _
    cases r with
    | ok node => exact .pure rfl
    | err fp =>
      have := ih (failed ++ [fp])
      rw [List.map_append] at this
      exact this
    | fix fp => exact .pure rfl

/-- What is asked of the solvers. -/
def FixSim (eps : T) (ps : List (Production T)) (p : Parser σ L T) (p' : Parser τ L' T)
    (tokens : List (Token L T)) (f : L → Option L') (R : σ → τ → Prop) (Q : T → Nat → Bool → Prop) : Prop :=
  ∀ x pos outs sg failed, Q x pos sg → IsNonTerminal ps x ∨ outs = [] → Pre p tokens x pos outs →
    FailedProdsOk eps ps p.syntaxErrorSolver.isSome p.getTokenProductions tokens outs failed →
    Sim R (Option.map (mapFix f))
      (tryFixProductions p tokens pos sg (isChildSinglePath sg outs) failed)
      (tryFixProductions p' (tokens.map (mapToken f)) pos sg (isChildSinglePath sg outs)
        (failed.map (mapFailedProduction f)))

theorem fixOptionToResult_map (failed : List (FailedProduction L T)) (fx : Option (FixResult L T))
    (x : T) :
    fixOptionToResult (failed.map (mapFailedProduction f)) (fx.map (mapFix f)) x =
      mapSym f (fixOptionToResult failed fx x) := by
  cases fx with
  | some r => rfl
  | none => simp [fixOptionToResult, mapSym, mapFailedSymbol, mapFailedProductions_eq]

theorem innerParse_sim (P : ParserOf eps init ps p) (A : Agree p p')
    (hQ : ∀ x pos outs sg, Q x pos sg → Pre p tokens x pos outs →
      ∀ o ∈ outs, ∀ y ∈ o, ∀ q, Q y q (isChildSinglePath sg outs))
    (hfix : FixSim eps ps p p' tokens f R Q) (n : Nat) (x : T) (pos : Nat) (outs : List (List T))
    (sg : Bool) (hsg : Q x pos sg) (hpre : Pre p tokens x pos outs) :
    Sim R (mapSym f) (innerParse p tokens n x pos outs sg)
      (innerParse p' (tokens.map (mapToken f)) n x pos outs sg) := by
  induction n generalizing x pos outs sg with
  | zero => exact .fuel
  | succ n ih =>
    have hok : RecOk eps ps p tokens (innerParse p tokens n) :=
      fun x pos outs sg s r s' _ ho e => innerParse_spec P tokens n ho e
    unfold innerParse
    refine .bind (tryParseProductionsLoop_sim P A hok (fun x pos outs sg h1 _ h2 => ih x pos outs sg h1 h2)
      n x pos outs (hQ _ _ _ _ hsg hpre) []) ?_
    intro r s s1 e
    have hr := tryParseProductionsLoop_spec P hok (fun o ho => hpre.mem P ho) (done := []) .nil e
    cases r with
    | ok r' => exact .pure rfl
    | error failed =>
      simp only [mapTry]
      simp only [List.nil_append] at hr
      refine .bind (hfix x pos outs sg failed hsg ?_ hpre hr) ?_
      · cases outs with
        | nil => exact .inr rfl
        | cons o os => exact .inl ⟨_, hpre.mem P (List.mem_cons_self), rfl⟩
      · intro fx s s1 _
        exact .pure (fixOptionToResult_map failed fx x).symm

/-- The whole run. -/
theorem parseFromTokens_sim (P : ParserOf eps init ps p) (A : Agree p p')
    (hQ : ∀ x pos outs sg, Q x pos sg → Pre p tokens x pos outs →
      ∀ o ∈ outs, ∀ y ∈ o, ∀ q, Q y q (isChildSinglePath sg outs))
    (hT : Q p.grammar.initialSymbol 0 true)
    (hfix : FixSim eps ps p p' tokens f R Q) (n : Nat) :
    Sim R (mapResult f) (parseFromTokens p n tokens)
      (parseFromTokens p' n (tokens.map (mapToken f))) := by
  unfold parseFromTokens
  rw [List.length_map]
  split
  · exact .panic _
  · rw [List.getElem?_map]
    cases ht : tokens[0]? with
    | none => exact .panic _
    | some t =>
      simp only [Option.map_some]
      rw [show (mapToken f t).tType = t.tType from rfl, A.cand_eq, A.init_eq]
      refine .bind (innerParse_sim P A hQ hfix n _ _ _ _ hT ⟨t, ht, List.suffix_refl _⟩) ?_
      intro r s s1 _
      refine .pure ?_
      cases r with
      | ok s =>
        simp [mapSym, toParseResult, mapResult, mapPS]
      | err e => rfl
      | fix s => rfl

end Parser

end Verif
