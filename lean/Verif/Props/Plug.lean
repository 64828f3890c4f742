import Verif.Proof.Plug
import Verif.Props.Compose

/-!
# Property C99: a grammar in place of a terminal of another one
-/

set_option linter.unusedSectionVars false

namespace Verif.Props

open Verif.Spec Verif.Examples

variable {σ L T : Type} [DecidableEq T]

/-- The cells of a table, by the lookaheads of the productions. -/
theorem candidates_eq_of_lead {τ : Type} {h h' : HashOrder T} {eps init init' : T} {ps all : List (Production T)}
    {g g' : Grammar T} (hg : Grammar.new h eps init ps = .ok g) (hg' : Grammar.new h' eps init' all = .ok g')
    {solver : Option (Solver σ L T)} {solver' : Option (Solver τ L T)} {p : Parser σ L T} {p' : Parser τ L T}
    (hp : Built h g solver p) (hp' : Built h' g' solver' p') {x : T} (hn : IsNonTerminal ps x)
    (hn' : IsNonTerminal all x)
    (hfil : all.filter (fun r => r.input = x) = ps.filter (fun r => r.input = x)) {a a' : T}
    (hlead : ∀ q ∈ ps, q ∈ all ∧ (q.input = x → (Transitions.Lead eps all q a' ↔ Transitions.Lead eps ps q a))) :
    candidates p'.transitions x a' = candidates p.transitions x a := by
  obtain ⟨ff, hff, e⟩ := (Parser.built_iff hg).1 hp
  obtain ⟨ff', hff', e'⟩ := (Parser.built_iff hg').1 hp'
  obtain ⟨S, hS, hL⟩ := table_spec hg hff (Parser.from_eq_ok e).2.2
  obtain ⟨S', hS', hL'⟩ := table_spec hg' hff' (Parser.from_eq_ok e').2.2
  have key : ∀ {τ : Type} {gs : List (Production T)} {U : Production T → List T} {t : Transitions T} (_ : Transitions.TableOf gs U t)
      (_ : ∀ r ∈ gs, ∀ d, d ∈ U r ↔ Transitions.Lead eps gs r d) (d : T), IsNonTerminal gs x →
      candidates t x d = (gs.filter (fun r => r.input = x ∧ d ∈ U r)).map (·.output) := by
    intro _ gs U t hT hU d hx
    unfold candidates
    by_cases hd : IsTerminal gs d
    · rw [hT.some x d hx hd]
      rfl
    · rw [hT.none x d fun h => hd h.2]
      have : gs.filter (fun r => r.input = x ∧ d ∈ U r) = [] := by
        rw [List.filter_eq_nil_iff]
        intro r hr hc
        simp only [decide_eq_true_eq] at hc
        exact hd (lead_isTerminal ((hU r hr d).1 hc.2))
      rw [this]
      rfl
  rw [key (τ := τ) hS hL a hn, key (τ := τ) hS' hL' a' hn']
  congr 1
  have hf : ∀ (l : List (Production T)) (U : Production T → List T) (d : T),
      l.filter (fun r => r.input = x ∧ d ∈ U r) = (l.filter (fun r => r.input = x)).filter (fun r => d ∈ U r) := by
    intro l U d
    rw [List.filter_filter]
    apply List.filter_congr
    intro r _
    rw [Bool.and_comm, ← Bool.decide_and]
  rw [hf, hf, hfil]
  apply List.filter_congr
  intro r hr
  simp only [List.mem_filter, decide_eq_true_eq] at hr
  rw [decide_eq_decide, hL r hr.1, hL' r (hlead r hr.1).1, (hlead r hr.1).2 hr.2]

section
variable (h h₁ h₂ : HashOrder T) (eps init b : T) (ps qs : List (Production T)) (ha : Plugs b ps qs)
  (hi : IsNonTerminal ps init) (ga gb : Grammar T) (hga : Grammar.new h₁ eps init ps = .ok ga)
  (hgb : Grammar.new h₂ eps b qs = .ok gb)
include ha hi hga hgb

/-- **C99.** Let `b` be a terminal of one grammar and the initial non-terminal of another one, with no other symbol
of one grammar a non-terminal of the other one, and put all productions together. The new grammar is accepted; its
sentences are those of the first grammar with sentences of the second one in place of every `b`; its trees those of
the first grammar with trees of the second one at every leaf `b`; it has two equal non-terminals side by side if one
of the two has or if `b` stands beside `b`; and, if `b` cannot be empty, it is left-recursive only if one of the two
is. -/
theorem C99_plug : (∃ g, Grammar.new h eps init (ps ++ qs) = .ok g) ∧
    (∀ w, Sentence eps init (ps ++ qs) w ↔
      ∃ u, Sentence eps init ps u ∧ Replaced b (fun v => Sentence eps b qs v) u w) ∧
    (∀ n : Node L T, (∃ w, IsTree eps (ps ++ qs) init w n) ↔
      ∃ u n0, IsTree eps ps init u n0 ∧ Grafted b (fun m => ∃ v, IsTree eps qs b v m) n0 n) ∧
    (NoAdjacentRepeat (ps ++ qs) ↔ NoAdjacentRepeat ps ∧ NoAdjacentRepeat qs ∧
      ∀ p ∈ ps, ∀ u v, p.output ≠ u ++ b :: b :: v) ∧
    (¬ Sentence eps b qs [] →
      (NotLeftRecursive eps (ps ++ qs) ↔ NotLeftRecursive eps ps ∧ NotLeftRecursive eps qs)) := by
  have w1 := (Grammar.grammarOf_of_new hga).wf
  have w2 := (Grammar.grammarOf_of_new hgb).wf
  have hbe : b ≠ eps := by
    obtain ⟨q, hq, rfl⟩ := ha.nt
    exact (w2 q hq).1
  refine ⟨(Grammar.new_eq_ok_iff h eps init _).2 ?_, fun w => ha.sentence_iff hbe hi, fun n => ⟨?_, ?_⟩,
    ha.noAdjacentRepeat, fun hb => ha.notLeftRecursive fun hn => hb ⟨hn, by simp⟩⟩
  · intro r hr
    exact (List.mem_append.1 hr).elim (w1 r) (w2 r)
  · rintro ⟨w, hw⟩
    exact ha.tree hbe hw (ha.outer_nt hi)
  · rintro ⟨u, n0, k1, k2⟩
    refine ha.tree_mk hbe k1 (.inr ?_) n k2
    rintro ⟨q, hq, e⟩
    obtain ⟨p, hp, e'⟩ := hi
    exact (ha.left p hp q hq).1 (e'.trans e.symm)

variable (e : T) (hm : EndMarked eps b e qs)
  (sa : Option (Solver σ L T)) (pa : Parser σ L T) (hpa : Built h₁ ga sa pa)
  (sb : Option (Solver σ L T)) (pb : Parser σ L T) (hpb : Built h₂ gb sb pb)
  (g : Grammar T) (hg : Grammar.new h eps init (ps ++ qs) = .ok g)
  (solver : Option (Solver σ L T)) (p : Parser σ L T) (hp : Built h g solver p)
include hm hpa hpb hg hp

/-- **C99**, the table, if the second grammar is end-marked: its cells stay as they are; the cells of the first
grammar for a terminal other than `b` that cannot start a sentence of the second grammar stay as they are; and
the cell for a terminal that can, and is not one of the first grammar, is the old cell for `b`. -/
theorem C99_plug_cells :
    (∀ x c, IsNonTerminal qs x → candidates p.transitions x c = candidates pb.transitions x c) ∧
    (∀ x c, IsNonTerminal ps x → c ≠ b → ¬ CanStart eps qs b c →
      candidates p.transitions x c = candidates pa.transitions x c) ∧
    (∀ x c, IsNonTerminal ps x → ¬ IsTerminal ps c → CanStart eps qs b c →
      candidates p.transitions x c = candidates pa.transitions x b) := by
  have w2 := (Grammar.grammarOf_of_new hgb).wf
  have hbe : b ≠ eps := by
    obtain ⟨q, hq, rfl⟩ := ha.nt
    exact (w2 q hq).1
  have hb := not_nullable_of_endMarked hm ha.nt
  have hfp : ∀ x, IsNonTerminal ps x → (ps ++ qs).filter (fun r => r.input = x) = ps.filter (fun r => r.input = x) := by
    rintro x ⟨r, hr, rfl⟩
    exact filter_eq_of_embeds ⟨[], qs, by simp, by simp, fun q hq => (ha.left r hr q hq).1.symm⟩
  refine ⟨fun x c hx => ?_, fun x c hx hcb hc => ?_, fun x c hx ht hc => ?_⟩
  · refine cells_of_embeds ha.embeds (fun q hq c => ha.embeds.lead ha.uses hm hq c) ?_ hgb hg hpb hp hx c
    rintro x ⟨r, hr, rfl⟩
    exact filter_eq_of_embeds ⟨ps, [], by simp, fun q hq => (ha.left q hq r hr).1, by simp⟩
  · refine candidates_eq_of_lead hga hg hpa hp hx (Plugs.nt_iff.2 (.inl hx)) (hfp x hx)
      fun q hq => ⟨List.mem_append.2 (.inl hq), fun _ => ?_⟩
    rw [ha.lead hb hbe hq]
    exact ⟨fun k => k.elim (·.2) fun k => absurd k.2 hc, fun k => .inl ⟨hcb, k⟩⟩
  · refine candidates_eq_of_lead hga hg hpa hp hx (Plugs.nt_iff.2 (.inl hx)) (hfp x hx)
      fun q hq => ⟨List.mem_append.2 (.inl hq), fun _ => ?_⟩
    rw [ha.lead hb hbe hq]
    exact ⟨fun k => k.elim (fun k => absurd (lead_isTerminal k.2) ht) (·.1), fun k => .inr ⟨k, hc⟩⟩

/-- **C99**, conflicts: if, besides, no terminal of the first grammar can start a sentence of the second one, and the
second one has a sentence, the new table is free of conflicts iff the two old ones are. -/
theorem C99_plug_conflict_free (hd : ∀ c, IsTerminal ps c → ¬ CanStart eps qs b c) (w : List T)
    (hw : Sentence eps b qs w) :
    ConflictFree p.transitions ↔ ConflictFree pa.transitions ∧ ConflictFree pb.transitions := by
  obtain ⟨k1, k2, k3⟩ := C99_plug_cells h h₁ h₂ eps init b ps qs ha hi ga gb hga hgb e hm sa pa hpa sb pb hpb g hg
    solver p hp
  obtain ⟨c0, hc0⟩ : ∃ c, CanStart eps qs b c := by
    cases w with
    | nil => exact absurd hw.1 (not_nullable_of_endMarked hm ha.nt)
    | cons c w => exact ⟨c, (hw.2 c (by simp)).1, (hw.2 c (by simp)).2, w, hw.1⟩
  rw [conflictFree_iff, conflictFree_iff, conflictFree_iff]
  constructor
  · intro hcf
    refine ⟨fun x c => ?_, fun x c => ?_⟩
    · by_cases hx : IsNonTerminal ps x
      · by_cases hcb : c = b
        · subst hcb
          rw [← k3 x c0 hx (fun ht => hd c0 ht hc0) hc0]
          exact hcf x c0
        · by_cases hc : CanStart eps qs b c
          · have ht : ¬ IsTerminal ps c := fun ht => hd c ht hc
            have : candidates pa.transitions x c = [] := by
              obtain ⟨ff, hff, e0⟩ := (Parser.built_iff hga).1 hpa
              obtain ⟨S, hS, -⟩ := table_spec hga hff (Parser.from_eq_ok e0).2.2
              unfold candidates
              rw [hS.none x c fun h => ht h.2]
              rfl
            rw [this]
            simp
          · rw [← k2 x c hx hcb hc]
            exact hcf x c
      · rw [candidates_nil hga hpa hx]; simp
    · by_cases hx : IsNonTerminal qs x
      · rw [← k1 x c hx]; exact hcf x c
      · rw [candidates_nil hgb hpb hx]; simp
  · rintro ⟨h1, h2⟩ x c
    by_cases hx' : IsNonTerminal qs x
    · rw [k1 x c hx']; exact h2 x c
    by_cases hx : IsNonTerminal ps x
    · by_cases hc : CanStart eps qs b c
      · rw [k3 x c hx (fun ht => hd c ht hc) hc]; exact h1 x b
      · by_cases hcb : c = b
        · have : candidates p.transitions x c = [] := by
            obtain ⟨ff, hff, e0⟩ := (Parser.built_iff hg).1 hp
            obtain ⟨S, hS, -⟩ := table_spec hg hff (Parser.from_eq_ok e0).2.2
            unfold candidates
            rw [hS.none x c fun h => h.2.2 (Plugs.nt_iff.2 (.inr (hcb ▸ ha.nt)))]
            rfl
          rw [this]
          simp
        · rw [k2 x c hx hcb hc]; exact h1 x c
    · rw [candidates_nil hg hp (fun hn => (Plugs.nt_iff.1 hn).elim hx hx')]; simp

end

section
variable (h h₁ h₂ : HashOrder T) (eps init b : T) (ps qs : List (Production T)) (ha : Plugs b ps qs)
  (hi : IsNonTerminal ps init) (ga gb : Grammar T) (hga : Grammar.new h₁ eps init ps = .ok ga)
  (hgb : Grammar.new h₂ eps b qs = .ok gb) (e e' : T) (hm : EndMarked eps b e qs)
  (sa : Option (Solver σ L T)) (pa : Parser σ L T) (hpa : Built h₁ ga sa pa)
  (sb : Option (Solver σ L T)) (pb : Parser σ L T) (hpb : Built h₂ gb sb pb)
  (g : Grammar T) (hg : Grammar.new h eps init (ps ++ qs) = .ok g) (p : Parser σ L T) (hp : Built h g none p)
include ha hi hga hgb hm hpa hpb hg hp

/-- **C99**, deciding. Let both grammars be end-marked, the first one by a symbol that is not `b` and does not occur
in the second one, both without left recursion and without two equal non-terminals side by side, `b` nowhere beside
`b`, both tables free of conflicts, and let no terminal of the first grammar start a sentence of the second one.
Then nothing has to be checked of the new grammar: an input that ends with the end marker of the first grammar gives
`Ok` if it is a sentence of the first grammar with sentences of the second one in place of every `b`, with a tree of
the first grammar with trees of the second one at its leaves `b`; and `Err` if it is not. -/
theorem C99_plug_decides (hm' : EndMarked eps init e' ps) (heb : e' ≠ b) (heq : ∀ q ∈ qs, e' ∉ q.output)
    (hd : ∀ c, IsTerminal ps c → ¬ CanStart eps qs b c)
    (hla : NotLeftRecursive eps ps) (hlb : NotLeftRecursive eps qs) (hra : NoAdjacentRepeat ps)
    (hrb : NoAdjacentRepeat qs) (hbb : ∀ p ∈ ps, ∀ u v, p.output ≠ u ++ b :: b :: v)
    (hca : ConflictFree pa.transitions) (hcb : ConflictFree pb.transitions) (w : List T) (hw : Sentence eps b qs w)
    (tokens : List (Token L T)) (hin : EndsWith e' tokens) (s : σ) :
    ((∃ u, Sentence eps init ps u ∧ Replaced b (fun v => Sentence eps b qs v) u (tokens.map (·.tType))) →
      ∃ tree u n0, Parses p tokens s (.ok tree) s ∧ leaves eps tree.root = tokens ∧ IsTree eps ps init u n0 ∧
        Grafted b (fun m => ∃ v, IsTree eps qs b v m) n0 tree.root) ∧
    ((¬ ∃ u, Sentence eps init ps u ∧ Replaced b (fun v => Sentence eps b qs v) u (tokens.map (·.tType))) →
      ∃ f s', Parses p tokens s (.err f) s') := by
  obtain ⟨-, hsen, htree, hr, hl⟩ := C99_plug (L := L) h h₁ h₂ eps init b ps qs ha hi ga gb hga hgb
  have hcf := (C99_plug_conflict_free h h₁ h₂ eps init b ps qs ha hi ga gb hga hgb e hm sa pa hpa sb pb hpb g hg none
    p hp hd w hw).2 ⟨hca, hcb⟩
  have hb : ¬ Sentence eps b qs [] := fun k => not_nullable_of_endMarked hm ha.nt k.1
  obtain ⟨k1, k2⟩ := C22_decides h eps init _ g hg p hp hcf (hr.2 ⟨hra, hrb, hbb⟩) ((hl hb).2 ⟨hla, hlb⟩) e'
    (ha.endMarked hi hm' heb heq) tokens hin s
  rw [hsen] at k1 k2
  refine ⟨fun hs => ?_, k2⟩
  obtain ⟨tree, h1, h2⟩ := k1 hs
  obtain ⟨u, n0, h3, h4⟩ := (htree tree.root).1 ⟨_, h2⟩
  exact ⟨tree, u, n0, h1, isTree_leaves (Grammar.grammarOf_of_new hg).wf h2, h3, h4⟩

end

/-- Statements `S → a = E ;`, `E → B R`, `R → + E | ε` with `B` a terminal: `S = 1, E = 2, R = 3, B = 6`,
`a = 10, = is 11, ; is 12, + is 13`. -/
def outerPs : List (Production Nat) := [⟨1, [10, 11, 2, 12]⟩, ⟨2, [6, 3]⟩, ⟨3, [13, 2]⟩, ⟨3, [0]⟩]

/-- The hypotheses of C99 are met, with the blocks of C98 in place of `B`. -/
theorem C99_plug_example : ∃ ga gb g pa pb p tree,
    Plugs 6 outerPs blockPs ∧ Grammar.new (HashOrder.id Nat) 0 1 outerPs = .ok ga ∧
    Grammar.new (HashOrder.id Nat) 0 6 blockPs = .ok gb ∧
    Grammar.new (HashOrder.id Nat) 0 1 (outerPs ++ blockPs) = .ok g ∧
    Built (σ := Unit) (L := Unit) (HashOrder.id Nat) ga none pa ∧
    Built (σ := Unit) (L := Unit) (HashOrder.id Nat) gb none pb ∧
    Built (σ := Unit) (L := Unit) (HashOrder.id Nat) g none p ∧
    EndMarked 0 1 12 outerPs ∧ EndMarked 0 6 15 blockPs ∧ 12 ≠ 6 ∧ (∀ q ∈ blockPs, 12 ∉ q.output) ∧
    (∀ c, IsTerminal outerPs c → ¬ CanStart 0 blockPs 6 c) ∧
    NotLeftRecursive 0 outerPs ∧ NotLeftRecursive 0 blockPs ∧ NoAdjacentRepeat outerPs ∧ NoAdjacentRepeat blockPs ∧
    (∀ p ∈ outerPs, ∀ u v, p.output ≠ u ++ 6 :: 6 :: v) ∧
    ConflictFree pa.transitions ∧ ConflictFree pb.transitions ∧ Sentence 0 6 blockPs [14, 15] ∧
    Parses p [⟨none, 10⟩, ⟨none, 11⟩, ⟨none, 14⟩, ⟨none, 10⟩, ⟨none, 15⟩, ⟨none, 13⟩, ⟨none, 14⟩, ⟨none, 15⟩,
      ⟨none, 12⟩] () (.ok tree) () := by
  obtain ⟨ga, gb, g, pa, pb, p, tree, hga, hgb, hg, hpa, hpb, hp, hr, c1, c2⟩ :
      ∃ ga gb g pa pb p tree,
      Grammar.new (HashOrder.id Nat) 0 1 outerPs = .ok ga ∧
      Grammar.new (HashOrder.id Nat) 0 6 blockPs = .ok gb ∧
      Grammar.new (HashOrder.id Nat) 0 1 (outerPs ++ blockPs) = .ok g ∧
      Built (σ := Unit) (L := Unit) (HashOrder.id Nat) ga none pa ∧
      Built (σ := Unit) (L := Unit) (HashOrder.id Nat) gb none pb ∧
      Built (σ := Unit) (L := Unit) (HashOrder.id Nat) g none p ∧
      Parses p [⟨none, 10⟩, ⟨none, 11⟩, ⟨none, 14⟩, ⟨none, 10⟩, ⟨none, 15⟩, ⟨none, 13⟩, ⟨none, 14⟩, ⟨none, 15⟩,
        ⟨none, 12⟩] () (.ok tree) () ∧
      (∀ x ∈ outerPs.map (·.input), ∀ a ∈ outerPs.flatMap (·.output),
        ((pa.transitions.getProductions x a).getD []).length ≤ 1) ∧
      (∀ x ∈ blockPs.map (·.input), ∀ a ∈ blockPs.flatMap (·.output),
        ((pb.transitions.getProductions x a).getD []).length ≤ 1) :=
    ⟨_, _, _, _, _, _, _, rfl, rfl, rfl, Parser.built_of_eval (n := 10) rfl,
      Parser.built_of_eval (n := 10) rfl, Parser.built_of_eval (n := 10) rfl,
      Parser.parse_returns (n := 40) rfl, by decide, by decide⟩
  have hst : ∀ c, CanStart 0 blockPs 6 c → c = 14 := by
    rintro c ⟨⟨_, hn⟩, _, v, hd⟩
    cases hd with
    | refl => exact absurd ⟨⟨6, [14, 7, 15]⟩, by decide, rfl⟩ hn
    | step hs hd =>
      obtain ⟨q, hq, hq6, rfl⟩ := Step.single hs
      have : q = ⟨6, [14, 7, 15]⟩ := by
        clear hs hd
        revert q
        decide
      subst this
      obtain ⟨c1, c2, e, k1, -⟩ := Derives.cons_split (x := 14) (b := [7, 15]) hd
      rw [Derives.terminal_eq (by unfold IsNonTerminal; decide) k1] at e
      simp only [List.cons_append, List.cons.injEq] at e
      exact e.1
  refine ⟨ga, gb, g, pa, pb, p, tree, ⟨⟨⟨6, [14, 7, 15]⟩, by decide, rfl⟩, by decide, by decide⟩, hga, hgb, hg,
    hpa, hpb, hp, ⟨by decide, by unfold IsNonTerminal; decide, by decide, ?_, by decide⟩, blockPs_endMarked, by decide,
    by decide, ?_, ?_, ?_, noAdjacentRepeat_of (by decide), noAdjacentRepeat_of (by decide), ?_,
    conflictFree_of_check hga hpa c1, conflictFree_of_check hgb hpb c2, ?_, hr⟩
  · intro p hp e
    have : p = ⟨1, [10, 11, 2, 12]⟩ := by
      revert p
      decide
    subst this
    exact ⟨[10, 11, 2], rfl, by decide⟩
  · rintro c ⟨⟨r, hr, ho⟩, _⟩ hc
    rw [hst c hc] at ho
    revert r
    decide
  · exact notLeftRecursive_of_rank (fun x => x == 3) (fun x => if x < 5 then 4 - x else 0) (by decide)
  · exact notLeftRecursive_of_rank (fun x => x == 7) (fun x => if x < 10 then 1 else 0) (by decide)
  · intro p hp u v e
    have h1 : p.output[u.length]? = some 6 := by rw [e]; simp
    have h2 : p.output[u.length + 1]? = some 6 := by rw [e]; simp
    have : ∀ p ∈ outerPs, ∀ i < p.output.length, p.output[i]? = some 6 → p.output[i + 1]? ≠ some 6 := by decide
    exact this p hp u.length (by rw [e]; simp) h1 h2
  · refine ⟨.step (Step.mk [] [] ⟨6, [14, 7, 15]⟩ (by decide))
      (.step (Step.mk [14] [15] ⟨7, [0]⟩ (by decide)) (.refl _)), ?_⟩
    unfold IsTerminal IsNonTerminal
    decide

end Verif.Props
