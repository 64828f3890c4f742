import Verif.Proof.Reuse
import Verif.Props.StackMachine
import Verif.Props.Edit

/-!
# Property C108: what an edit of the input leaves as it is
-/

namespace Verif.Props

open Verif.Spec Verif.Examples

variable {σ L T : Type} [DecidableEq T]

section
variable (h : HashOrder T) (eps init : T) (ps : List (Production T)) (g : Grammar T)
  (hg : Grammar.new h eps init ps = .ok g) (p : Parser σ L T) (hp : AnyParser h g p) (hcf : ConflictFree p.transitions)
include hg hp hcf

/-- **C108**, in front of the edit. Let the parser, with a table without conflicts, computed or user-supplied sets and any
solver, return `Ok` for two inputs. Every node of the first tree such that the inputs agree on all tokens up to the end of
the node, and on the type of the next one, is a node of the second tree, at the same place. -/
theorem C108_prefix (tokens tokens' : List (Token L T)) (s₁ s₁' s₂ s₂' : σ) (tree tree' : Tree L T)
    (hr : Parses p tokens s₁ (.ok tree) s₁') (hr' : Parses p tokens' s₂ (.ok tree') s₂') (m : Node L T) (j : Nat)
    (hm : Occurs eps [tree.root] 0 m j)
    (hsame : ∀ i, i < j + (leaves eps m).length → tokens'[i]? = tokens[i]?)
    (hnext : ∀ t, tokens[j + (leaves eps m).length]? = some t →
      ∃ t', tokens'[j + (leaves eps m).length]? = some t' ∧ t'.tType = t.tType) :
    Occurs eps [tree'.root] 0 m j := by
  have P := hp.parserOf hg
  obtain ⟨k, h1⟩ := C70_ok_predicted h eps init ps g hg p hp tokens s₁ s₁' tree hr
  obtain ⟨k', h2⟩ := C70_ok_predicted h eps init ps g hg p hp tokens' s₂ s₂' tree' hr'
  exact Reuse.occurs P.grammar.wf (by rw [candidates_eq]; exact Parser.conflictFree_length hcf)
    (by rw [candidates_eq]; exact P.cand) hm (.cons _ _ _ _ _ _ _ h1 (.nil _)) (.cons _ _ _ _ _ _ _ h2 (.nil _))
    ⟨hsame, hnext⟩

/-- **C108**, behind the edit. A node of the first tree and a node of the second tree with the same symbol are equal if
the inputs agree, from where these nodes begin, on the tokens of the first one and the type of the next one. -/
theorem C108_same_symbol (tokens tokens' : List (Token L T)) (s₁ s₁' s₂ s₂' : σ) (tree tree' : Tree L T)
    (hr : Parses p tokens s₁ (.ok tree) s₁') (hr' : Parses p tokens' s₂ (.ok tree') s₂') (m m' : Node L T) (j j' : Nat)
    (hm : Occurs eps [tree.root] 0 m j) (hm' : Occurs eps [tree'.root] 0 m' j') (hx : m'.token.tType = m.token.tType)
    (hsame : ∀ i, i < (leaves eps m).length → tokens'[j' + i]? = tokens[j + i]?)
    (hnext : ∀ t, tokens[j + (leaves eps m).length]? = some t →
      ∃ t', tokens'[j' + (leaves eps m).length]? = some t' ∧ t'.tType = t.tType) :
    m' = m := by
  have P := hp.parserOf hg
  have hc : ∀ x a o, o ∈ candidates p.transitions x a → (⟨x, o⟩ : Production T) ∈ ps := by
    rw [candidates_eq]; exact P.cand
  obtain ⟨k, h1⟩ := C70_ok_predicted h eps init ps g hg p hp tokens s₁ s₁' tree hr
  obtain ⟨k', h2⟩ := C70_ok_predicted h eps init ps g hg p hp tokens' s₂ s₂' tree' hr'
  obtain ⟨b, h3⟩ := Reuse.predicted_at P.grammar.wf hc hm (.cons _ _ _ _ _ _ _ h1 (.nil _))
  obtain ⟨b', h4⟩ := Reuse.predicted_at P.grammar.wf hc hm' (.cons _ _ _ _ _ _ _ h2 (.nil _))
  rw [hx] at h4
  exact Reuse.same P.grammar.wf (by rw [candidates_eq]; exact Parser.conflictFree_length hcf) hc h3 h4
    ⟨fun i hi => by rw [List.getElem?_drop, List.getElem?_drop]; exact hsame i hi,
      fun t ht => by
        rw [List.getElem?_drop] at ht ⊢
        exact hnext t ht⟩

/-- **C108**, for an edit. Let `u w v` and `u w' v` both be accepted. The nodes of the first tree that end in front of the
last token of `u` are nodes of the second tree at the same place; and a node of the first tree and one of the second that
begin at the same token of `v` and have the same symbol are equal. -/
theorem C108_edit (u w w' v : List (Token L T)) (s₁ s₁' s₂ s₂' : σ) (tree tree' : Tree L T)
    (hr : Parses p (u ++ (w ++ v)) s₁ (.ok tree) s₁') (hr' : Parses p (u ++ (w' ++ v)) s₂ (.ok tree') s₂') :
    (∀ m j, Occurs eps [tree.root] 0 m j → j + (leaves eps m).length < u.length → Occurs eps [tree'.root] 0 m j) ∧
    ∀ m m' d, Occurs eps [tree.root] 0 m (u.length + (w.length + d)) →
      Occurs eps [tree'.root] 0 m' (u.length + (w'.length + d)) → m'.token.tType = m.token.tType → m' = m := by
  have hf : ∀ (z : List (Token L T)) (i : Nat), (u ++ (z ++ v))[u.length + (z.length + i)]? = v[i]? := by
    intro z i
    rw [List.getElem?_append_right (by omega), List.getElem?_append_right (by omega)]
    congr 1
    omega
  refine ⟨fun m j hm hj => ?_, fun m m' d hm hm' hx => ?_⟩
  · have hs : ∀ i, i < u.length → (u ++ (w' ++ v))[i]? = (u ++ (w ++ v))[i]? := fun i hi => by
      rw [List.getElem?_append_left hi, List.getElem?_append_left hi]
    exact C108_prefix h eps init ps g hg p hp hcf _ _ s₁ s₁' s₂ s₂' tree tree' hr hr' m j hm
      (fun i hi => hs i (by omega)) (fun t ht => ⟨t, by rw [hs _ hj]; exact ht, rfl⟩)
  · have hs : ∀ i, (u ++ (w' ++ v))[u.length + (w'.length + d) + i]? = (u ++ (w ++ v))[u.length + (w.length + d) + i]? := by
      intro i
      rw [Nat.add_assoc, Nat.add_assoc, Nat.add_assoc, Nat.add_assoc, hf, hf]
    exact C108_same_symbol h eps init ps g hg p hp hcf _ _ s₁ s₁' s₂ s₂' tree tree' hr hr' m m' _ _ hm hm' hx
      (fun i _ => hs i) (fun t ht => ⟨t, by rw [hs]; exact ht, rfl⟩)

end

/-- Non-vacuity: with the lists of `a b` and `c`, `c c a b $` and `c c c $` are accepted without a conflict in the table; the
first node of `B` is in both trees, and the last, empty list begins in both trees in front of `$`. -/
theorem C108_example : ∃ g p tree tree' m m', Grammar.new (HashOrder.id Nat) 0 1 editPs = .ok g ∧
    AnyParser (HashOrder.id Nat) g (p : Parser Unit Unit Nat) ∧ ConflictFree p.transitions ∧
    Parses p ([⟨none, 12⟩, ⟨none, 12⟩] ++ ([⟨none, 10⟩, ⟨none, 11⟩] ++ [⟨none, 13⟩])) () (.ok tree) () ∧
    Parses p ([⟨none, 12⟩, ⟨none, 12⟩] ++ ([⟨none, 12⟩] ++ [⟨none, 13⟩])) () (.ok tree') () ∧
    m.token.tType = 3 ∧ Occurs 0 [tree.root] 0 m 0 ∧ 0 + (leaves 0 m).length < 2 ∧ Occurs 0 [tree'.root] 0 m 0 ∧
    m'.token.tType = 2 ∧ Occurs 0 [tree.root] 0 m' (2 + (2 + 0)) ∧ Occurs 0 [tree'.root] 0 m' (2 + (1 + 0)) := by
  obtain ⟨g, p, hg, hp, hr, hr', hall⟩ : ∃ g p,
      Grammar.new (HashOrder.id Nat) 0 1 editPs = .ok g ∧
      Built (HashOrder.id Nat) g none (p : Parser Unit Unit Nat) ∧
      Parses p ([⟨none, 12⟩, ⟨none, 12⟩] ++ ([⟨none, 10⟩, ⟨none, 11⟩] ++ [⟨none, 13⟩])) ()
        (.ok ⟨.mk [.mk [.mk [.mk [] ⟨none, 12⟩] ⟨none, 3⟩, .mk [.mk [.mk [] ⟨none, 12⟩] ⟨none, 3⟩,
          .mk [.mk [.mk [] ⟨none, 10⟩, .mk [] ⟨none, 11⟩] ⟨none, 3⟩, .mk [.mk [] ⟨none, 0⟩] ⟨none, 2⟩] ⟨none, 2⟩]
            ⟨none, 2⟩] ⟨none, 2⟩, .mk [] ⟨none, 13⟩] ⟨none, 1⟩⟩) () ∧
      Parses p ([⟨none, 12⟩, ⟨none, 12⟩] ++ ([⟨none, 12⟩] ++ [⟨none, 13⟩])) ()
        (.ok ⟨.mk [.mk [.mk [.mk [] ⟨none, 12⟩] ⟨none, 3⟩, .mk [.mk [.mk [] ⟨none, 12⟩] ⟨none, 3⟩,
          .mk [.mk [.mk [] ⟨none, 12⟩] ⟨none, 3⟩, .mk [.mk [] ⟨none, 0⟩] ⟨none, 2⟩] ⟨none, 2⟩]
            ⟨none, 2⟩] ⟨none, 2⟩, .mk [] ⟨none, 13⟩] ⟨none, 1⟩⟩) () ∧
      (∀ x ∈ editPs.map (·.input), ∀ a ∈ editPs.flatMap (·.output),
        ((p.transitions.getProductions x a).getD []).length ≤ 1) :=
    ⟨_, _, rfl, Parser.built_of_eval (n := 12) rfl, Parser.parse_returns (n := 80) rfl,
      Parser.parse_returns (n := 80) rfl, by decide⟩
  exact ⟨g, p, _, _, .mk [.mk [] ⟨none, 12⟩] ⟨none, 3⟩, .mk [.mk [] ⟨none, 0⟩] ⟨none, 2⟩, hg, .inl ⟨none, hp⟩,
    conflictFree_of_check hg hp hall, hr, hr', rfl, .inside _ _ _ _ _ _ (.inside _ _ _ _ _ _ (.here _ _ _)), by decide,
    .inside _ _ _ _ _ _ (.inside _ _ _ _ _ _ (.here _ _ _)), rfl,
    .inside _ _ _ _ _ _ (.inside _ _ _ _ _ _ (.behind _ _ _ _ _ (.inside _ _ _ _ _ _
      (.behind _ _ _ _ _ (.inside _ _ _ _ _ _ (.behind _ _ _ _ _ (.here _ _ _))))))),
    .inside _ _ _ _ _ _ (.inside _ _ _ _ _ _ (.behind _ _ _ _ _ (.inside _ _ _ _ _ _
      (.behind _ _ _ _ _ (.inside _ _ _ _ _ _ (.behind _ _ _ _ _ (.here _ _ _)))))))⟩

/-- `S → A c d | B c e`, `A → a`, `B → a`. -/
def reuseConflictPs : List (Production Nat) := [⟨1, [2, 12, 13]⟩, ⟨1, [3, 12, 14]⟩, ⟨2, [10]⟩, ⟨3, [10]⟩]

/-- **C108**: with a conflict in the table this fails: `a c d` and `a c e` are accepted, the node of the first tree over `a`
ends in front of the `c`, but is no node of the second tree. -/
theorem C108_conflict_breaks : ∃ g p tree tree' m, Grammar.new (HashOrder.id Nat) 0 1 reuseConflictPs = .ok g ∧
    Built (HashOrder.id Nat) g none (p : Parser Unit Unit Nat) ∧
    Parses p ([⟨none, 10⟩, ⟨none, 12⟩] ++ ([⟨none, 13⟩] ++ [])) () (.ok tree) () ∧
    Parses p ([⟨none, 10⟩, ⟨none, 12⟩] ++ ([⟨none, 14⟩] ++ [])) () (.ok tree') () ∧
    Occurs 0 [tree.root] 0 m 0 ∧ 0 + (leaves 0 m).length < 2 ∧ ¬ Occurs 0 [tree'.root] 0 m 0 := by
  obtain ⟨g, p, hg, hp, hr, hr'⟩ : ∃ g p, Grammar.new (HashOrder.id Nat) 0 1 reuseConflictPs = .ok g ∧
      Built (HashOrder.id Nat) g none (p : Parser Unit Unit Nat) ∧
      Parses p ([⟨none, 10⟩, ⟨none, 12⟩] ++ ([⟨none, 13⟩] ++ [])) ()
        (.ok ⟨.mk [.mk [.mk [] ⟨none, 10⟩] ⟨none, 2⟩, .mk [] ⟨none, 12⟩, .mk [] ⟨none, 13⟩] ⟨none, 1⟩⟩) () ∧
      Parses p ([⟨none, 10⟩, ⟨none, 12⟩] ++ ([⟨none, 14⟩] ++ [])) ()
        (.ok ⟨.mk [.mk [.mk [] ⟨none, 10⟩] ⟨none, 3⟩, .mk [] ⟨none, 12⟩, .mk [] ⟨none, 14⟩] ⟨none, 1⟩⟩) () :=
    ⟨_, _, rfl, Parser.built_of_eval (n := 12) rfl, Parser.parse_returns (n := 80) rfl,
      Parser.parse_returns (n := 80) rfl⟩
  refine ⟨g, p, _, _, .mk [.mk [] ⟨none, 10⟩] ⟨none, 2⟩, hg, hp, hr, hr', .inside _ _ _ _ _ _ (.here _ _ _), by decide, ?_⟩
  intro ho
  cases ho with
  | behind _ _ _ _ _ ho => cases ho
  | inside _ _ _ _ _ _ ho =>
    cases ho with
    | behind _ _ _ _ _ ho =>
      cases ho with
      | behind _ _ _ _ _ ho =>
        cases ho with
        | behind _ _ _ _ _ ho => cases ho
        | inside _ _ _ _ _ _ ho => cases ho
      | inside _ _ _ _ _ _ ho => cases ho
    | inside _ _ _ _ _ _ ho =>
      cases ho with
      | behind _ _ _ _ _ ho => cases ho
      | inside _ _ _ _ _ _ ho => cases ho

end Verif.Props
