import Verif.Proof.Forked
import Verif.Props.StackMachine
import Verif.Props.Backtrack
import Verif.Props.Choice
import Verif.Props.Compose
import Verif.Props.Table
import Verif.Proof.Expands
import Mathlib.Data.Fintype.Pigeonhole

/-!
# Property C105: a limit of tables without conflicts, and how to get past it
-/

set_option linter.unusedSectionVars false

namespace Verif.Props

open Verif.Spec Verif.Examples

variable {σ L T : Type} [DecidableEq T]

/-- An end-marked sentence ends with the marker, which is nowhere else. -/
private theorem sentence_ends {eps init e : T} {ps : List (Production T)} (hwf : WellFormed eps ps)
    (hem : EndMarked eps init e ps) (hinit : IsNonTerminal ps init) {w : List T} (h : Sentence eps init ps w) :
    ∃ w', w = w' ++ [e] ∧ e ∉ w' := by
  have key : ∀ {x : T} {w : List T}, Expands eps ps x w → x ≠ init → x ≠ e → e ∉ w := by
    intro x w h
    refine Expands.rec (eps := eps) (ps := ps) (motive_1 := fun x w _ => x ≠ init → x ≠ e → e ∉ w)
      (motive_2 := fun xs w _ => (∀ x ∈ xs, x ≠ init ∧ x ≠ e) → e ∉ w) ?_ ?_ ?_ ?_ h
    · intro x _ _ _ h
      simpa using Ne.symm h
    · intro q w hq _ ih hi _
      refine ih fun x hx => ?_
      have hx' : x ∈ q.output := by
        unfold rhs at hx
        split at hx
        · simp at hx
        · exact hx
      exact ⟨fun h => hem.initial_once q hq (h ▸ hx'), fun h => hem.only_there q hq hi (h ▸ hx')⟩
    · intro _; simp
    · intro x xs w w' _ _ ih1 ih2 hx
      simp only [List.mem_append, not_or]
      exact ⟨ih1 (hx x (by simp)).1 (hx x (by simp)).2, ih2 fun y hy => hx y (by simp [hy])⟩
  have h' := (sentence_iff_expands hinit).1 h
  generalize hi : init = x at h'
  cases h' with
  | leaf _ hx => exact absurd (hi ▸ hinit) hx
  | node q w hq hall =>
    obtain ⟨u, hu, hn⟩ := hem.initial_ends q hq hi.symm
    have hr : rhs eps q = u ++ [e] := by
      unfold rhs
      rw [if_neg, hu]
      intro h0
      have : e ∈ [eps] := by rw [← h0, hu]; simp
      exact hem.ne_eps (by simpa using this)
    rw [hr] at hall
    obtain ⟨w1, w2, rfl, h1, h2⟩ := hall.split
    rw [ExpandsAll.single] at h2
    have h2' : w2 = [e] := by
      cases h2 with
      | leaf => rfl
      | node q' _ hq' => exact absurd ⟨q', hq', rfl⟩ hem.terminal
    subst h2'
    refine ⟨w1, rfl, ?_⟩
    have : ∀ {xs : List T} {w : List T}, ExpandsAll eps ps xs w → (∀ x ∈ xs, x ≠ init ∧ x ≠ e) → e ∉ w := by
      intro xs
      induction xs with
      | nil => intro w h _; cases h; simp
      | cons x xs ih =>
        intro w h hx
        cases h with
        | cons _ _ w w' k1 k2 =>
          simp only [List.mem_append, not_or]
          exact ⟨key k1 (hx x (by simp)).1 (hx x (by simp)).2, ih k2 fun y hy => hx y (by simp [hy])⟩
    refine this h1 fun x hx => ⟨?_, ?_⟩
    · rintro rfl
      exact hem.initial_once q hq (by rw [hu]; simp [hx])
    · rintro rfl
      exact hn hx

section
variable (h : HashOrder T) (eps init : T) (ps : List (Production T))
  (g : Grammar T) (hg : Grammar.new h eps init ps = .ok g) (p : Parser σ L T) (hp : Built h g none p)
  (hcf : ConflictFree p.transitions) (hadj : NoAdjacentRepeat ps) (e : T) (hem : EndMarked eps init e ps)
  (a b c : T) (hab : a ≠ b) (hac : a ≠ c) (hbc : b ≠ c) (hae : a ≠ e) (hbe : b ≠ e) (hce : c ≠ e) (s : σ)
include hg hp hcf hadj hem hab hac hbc hae hbe hce s

/-- **C105.** An end-marked grammar without equal adjacent non-terminals and with a table without conflicts does not have
exactly the sentences `aⁿ bⁿ e` and `aⁿ cⁿ e`. -/
theorem C105_not_the_language : ¬ ∀ w, Sentence eps init ps w ↔ Forked a b c e w := by
  intro H
  have hwf := (Grammar.grammarOf_of_new hg).wf
  have hinit : IsNonTerminal ps init := by
    by_contra hc
    have h1 := (H ([a] ++ [b] ++ [e])).2 ⟨1, .inl rfl⟩
    have := Derives.terminal_eq hc h1.1
    simp at this
  have hsb : ∀ n, Sentence eps init ps (List.replicate n a ++ (List.replicate n b ++ [e])) := fun n =>
    (H _).2 ⟨n, .inl (by simp)⟩
  have hsc : ∀ n, Sentence eps init ps (List.replicate n a ++ (List.replicate n c ++ [e])) := fun n =>
    (H _).2 ⟨n, .inr (by simp)⟩
  have hcnt : ∀ (x : T) (m k n : Nat) (y z : T), List.count x (List.replicate m y ++ (List.replicate k z ++ [e])) =
      (if y = x then m else 0) + ((if z = x then k else 0) + if e = x then 1 else 0) := by
    intro x m k n y z
    rw [List.count_append, List.count_append, List.count_replicate, List.count_replicate, List.count_singleton]
    simp only [beq_iff_eq]
  have hforked : ∀ m n, Forked a b c e (List.replicate m a ++ (List.replicate (n + 1) b ++ [e])) → n + 1 = m := by
    rintro m n ⟨k, hk | hk⟩ <;> rw [List.append_assoc] at hk
    · have h1 := hcnt a m (n + 1) 0 a b
      have h2 := hcnt b m (n + 1) 0 a b
      rw [hk, hcnt _ _ _ 0] at h1 h2
      simp only [if_true, hab, Ne.symm hab, Ne.symm hae, Ne.symm hbe, if_false] at h1 h2
      omega
    · have h2 := hcnt b m (n + 1) 0 a b
      rw [hk, hcnt _ _ _ 0] at h2
      simp only [if_true, hab, Ne.symm hbc, Ne.symm hbe, if_false] at h2
      omega
  have hone : ∀ n : Nat, ∃ z d, Derives eps ps [z] (List.replicate (n + 2) b ++ Forked.tail e d) ∧
      ∀ m, Derives eps ps [z] (List.replicate (m + 2) b ++ Forked.tail e d) →
        Sentence eps init ps (List.replicate (n + 2) a ++ (List.replicate (m + 2) b ++ [e])) := by
    intro n
    obtain ⟨st, h1, h2⟩ := C104_sentences h eps init ps g hg p hp hcf hadj hinit e hem s
      (List.replicate (n + 2) a) ⟨_, hsb (n + 2)⟩
    have ht : ∀ x, x = b ∨ x = e ∨ x = c → IsTerminal ps x ∧ x ≠ eps := by
      rintro x (rfl | rfl | rfl)
      · exact (hsb 1).2 x (by simp)
      · exact (hsb 1).2 x (by simp)
      · exact (hsc 1).2 x (by simp)
    obtain ⟨z, d, h3, h4⟩ := Forked.one_symbol (eps := eps) (ps := ps) hbc hbe (fun x => x = b ∨ x = e ∨ x = c)
      (by simp) (by simp) (by simp) (n := n + 2) (by omega) ((h2 _).1 (hsb _)).1 ((h2 _).1 (hsc _)).1 (by
        intro v hv hd
        obtain ⟨k, hk⟩ := (H _).1 ((h2 v).2 ⟨hd, fun x hx => ht x (hv x hx)⟩)
        have hva : List.count a v = 0 := by
          rw [List.count_eq_zero]
          intro hm
          rcases hv a hm with h | h | h
          · exact hab h
          · exact hae h
          · exact hac h
        have hcount : List.count a (List.replicate (n + 2) a ++ v) = k := by
          rcases hk with hk | hk <;> rw [hk, List.append_assoc, hcnt _ _ _ 0] <;>
            simp [Ne.symm hae, Ne.symm hab, Ne.symm hac]
        rw [List.count_append, hva, List.count_replicate_self] at hcount
        obtain rfl : k = n + 2 := by omega
        simpa only [List.append_assoc, List.append_right_inj] using hk)
    refine ⟨z, d, h3, fun m hm => (h2 _).2 ⟨h4 _ hm, ?_⟩⟩
    intro x hx
    simp only [List.mem_append, List.mem_replicate, List.mem_singleton] at hx
    rcases hx with ⟨-, rfl⟩ | rfl
    · exact ht x (by simp)
    · exact ht x (by simp)
  choose z d hz hzs using hone
  have hznt : ∀ n, z n ∈ ps.map (·.input) := by
    intro n
    by_contra hc
    have := Derives.terminal_eq (fun ⟨q, hq, e⟩ => hc (List.mem_map.2 ⟨q, hq, e⟩)) (hz n)
    have := congrArg List.length this
    simp only [List.length_append, List.length_replicate, List.length_singleton] at this
    omega
  let f : Nat → {x // x ∈ ps.map (·.input)} × Bool := fun n => (⟨z n, hznt n⟩, d n)
  have : Finite {x // x ∈ ps.map (·.input)} :=
    Set.finite_coe_iff.2 (List.finite_toSet (ps.map (·.input)))
  obtain ⟨n1, n2, hne, hf⟩ := Finite.exists_ne_map_eq_of_infinite f
  simp only [f, Prod.mk.injEq, Subtype.mk.injEq] at hf
  have h1 := hz n2
  rw [← hf.1, ← hf.2] at h1
  have h2 := hforked _ _ ((H _).1 (hzs n1 n2 h1))
  omega

/-- **C105**, for the parser: no such parser returns `Ok` exactly for `aⁿ bⁿ e` and `aⁿ cⁿ e` among the inputs whose last
token is the only end marker. -/
theorem C105_no_conflict_free_parser : ¬ ∀ tokens : List (Token L T), EndsWith e tokens →
    ((∃ tree s', Parses p tokens s (.ok tree) s') ↔ Forked a b c e (tokens.map (·.tType))) := by
  intro H
  have hwf := (Grammar.grammarOf_of_new hg).wf
  have htok : ∀ w : List T, (w.map (Token.mk (none : Option L))).map (·.tType) = w := fun w => by
    simp [List.map_map, Function.comp_def]
  have hok : ∀ tokens : List (Token L T), EndsWith e tokens → ∀ tree s', Parses p tokens s (.ok tree) s' →
      IsNonTerminal ps init ∧ Sentence eps init ps (tokens.map (·.tType)) := by
    intro tokens hin tree s' hr
    obtain ⟨-, hn⟩ := C17_whole_input_partial h eps init ps g hg none p hp e hem tokens hin s s' tree hr
    obtain ⟨_, _, hnt, _⟩ := ok_tree (AnyParser.parserOf hg (.inl ⟨none, hp⟩)) hr
    have hi : init ≠ eps := by
      rintro rfl
      obtain ⟨q, hq, hqe⟩ := hnt
      exact (hwf q hq).1 hqe
    refine ⟨hnt, hn.derives hwf hi, fun x hx => ?_⟩
    obtain ⟨t, ht, rfl⟩ := List.mem_map.1 hx
    exact Parser.IsTree.terminals hn (.inl hnt) t ht
  have hends : ∀ w, Forked a b c e w → EndsWith e (w.map (Token.mk (none : Option L))) := by
    rintro w ⟨n, rfl | rfl⟩
    · refine ⟨(List.replicate n a ++ List.replicate n b).map (Token.mk none), ⟨none, e⟩, by simp, rfl, ?_⟩
      intro u hu
      simp only [List.mem_map, List.mem_append, List.mem_replicate] at hu
      obtain ⟨x, ⟨-, rfl⟩ | ⟨-, rfl⟩, rfl⟩ := hu <;> assumption
    · refine ⟨(List.replicate n a ++ List.replicate n c).map (Token.mk none), ⟨none, e⟩, by simp, rfl, ?_⟩
      intro u hu
      simp only [List.mem_map, List.mem_append, List.mem_replicate] at hu
      obtain ⟨x, ⟨-, rfl⟩ | ⟨-, rfl⟩, rfl⟩ := hu <;> assumption
  have hfs : ∀ w, Forked a b c e w → IsNonTerminal ps init ∧ Sentence eps init ps w := by
    intro w hw
    obtain ⟨tree, s', hr⟩ := (H _ (hends w hw)).2 (by rwa [htok])
    have := hok _ (hends w hw) tree s' hr
    rwa [htok] at this
  have hinit : IsNonTerminal ps init := (hfs ([a] ++ [b] ++ [e]) ⟨1, .inl rfl⟩).1
  refine C105_not_the_language h eps init ps g hg p hp hcf hadj e hem a b c hab hac hbc hae hbe hce s fun w =>
    ⟨fun hw => ?_, fun hw => (hfs w hw).2⟩
  obtain ⟨w', rfl, hn⟩ := sentence_ends hwf hem hinit hw
  obtain ⟨n, -, hr⟩ := C21_ll1_complete_end_marked h eps init ps g hg p hp hcf hadj e hem
    ((w' ++ [e]).map (Token.mk none)) [] (by rwa [htok]) s
  rw [List.append_nil] at hr
  have := (H ((w' ++ [e]).map (Token.mk none)) ⟨w'.map (Token.mk none), ⟨none, e⟩, by simp, rfl, by
    intro u hu
    simp only [List.mem_map] at hu
    obtain ⟨x, hx, rfl⟩ := hu
    rintro rfl
    exact hn hx⟩).1 ⟨_, _, hr⟩
  rwa [htok] at this

end

/-! ## With several productions in a cell -/

/-- `S → A $ | B $`, `A → a A b | ε`, `B → a B c | ε`. -/
def forkPs : List (Production Nat) :=
  [⟨1, [2, 13]⟩, ⟨1, [3, 13]⟩, ⟨2, [10, 2, 11]⟩, ⟨2, [0]⟩, ⟨3, [10, 3, 12]⟩, ⟨3, [0]⟩]

/-- A symbol with the productions `x → a x b` and `x → ε`. -/
private theorem expands_balanced {ps : List (Production T)} {eps a b x : T} (h1 : (⟨x, [a, x, b]⟩ : Production T) ∈ ps)
    (h2 : (⟨x, [eps]⟩ : Production T) ∈ ps) (h3 : ∀ q ∈ ps, q.input = x → q.output = [a, x, b] ∨ q.output = [eps])
    (ha : ¬ IsNonTerminal ps a) (hb : ¬ IsNonTerminal ps b) (hae : a ≠ eps) (hbe : b ≠ eps) {w : List T} :
    Expands eps ps x w ↔ ∃ n, w = List.replicate n a ++ List.replicate n b := by
  have r1 : rhs eps (⟨x, [a, x, b]⟩ : Production T) = [a, x, b] := by simp [rhs]
  have r2 : rhs eps (⟨x, [eps]⟩ : Production T) = [] := by simp [rhs]
  have hterm : ∀ {y : T} {w : List T}, ¬ IsNonTerminal ps y → Expands eps ps y w → w = [y] := by
    intro y w hy h
    cases h with
    | leaf => rfl
    | node q _ hq => exact absurd ⟨q, hq, rfl⟩ hy
  constructor
  · intro h
    induction hn : w.length using Nat.strong_induction_on generalizing w with
    | _ n ih =>
      generalize hx : x = y at h
      cases h with
      | leaf _ hy => exact absurd ⟨_, h2, hx⟩ hy
      | node q _ hq hall =>
        have : rhs eps q = [a, x, b] ∨ rhs eps q = [] := by
          rcases h3 q hq hx.symm with h | h
          · left; unfold rhs; rw [h]; simp
          · right; unfold rhs; rw [h]; simp
        rcases this with h | h
        · rw [h] at hall
          cases hall with
          | cons _ _ w1 w2 k1 k2 =>
            cases k2 with
            | cons _ _ w3 w4 k3 k4 =>
              have := hterm ha k1
              have := hterm hb (ExpandsAll.single.1 k4)
              subst_vars
              obtain ⟨m, rfl⟩ := ih w3.length (by simp; omega) k3 rfl
              exact ⟨m + 1, by rw [List.replicate_succ' (n := m) (a := b)]; simp [List.replicate_succ]⟩
        · rw [h] at hall
          cases hall
          exact ⟨0, rfl⟩
  · rintro ⟨n, rfl⟩
    induction n with
    | zero => exact .node _ _ h2 (by rw [r2]; exact .nil)
    | succ n ih =>
      have e : List.replicate (n + 1) a ++ List.replicate (n + 1) b =
          [a] ++ ((List.replicate n a ++ List.replicate n b) ++ ([b] ++ [])) := by
        rw [List.replicate_succ' (n := n) (a := b)]; simp [List.replicate_succ]
      rw [e]
      exact .node _ _ h1 (by
        rw [r1]; exact .cons _ _ _ _ (.leaf _ ha hae) (.cons _ _ _ _ ih (.cons _ _ _ _ (.leaf _ hb hbe) .nil)))

theorem forkPs_sentence (w : List Nat) : Sentence 0 1 forkPs w ↔ Forked 10 11 12 13 w := by
  have n10 : ¬ IsNonTerminal forkPs 10 := by unfold IsNonTerminal; decide
  have n11 : ¬ IsNonTerminal forkPs 11 := by unfold IsNonTerminal; decide
  have n12 : ¬ IsNonTerminal forkPs 12 := by unfold IsNonTerminal; decide
  have n13 : ¬ IsNonTerminal forkPs 13 := by unfold IsNonTerminal; decide
  have e2 : ∀ w, Expands 0 forkPs 2 w ↔ ∃ n, w = List.replicate n 10 ++ List.replicate n 11 := fun w =>
    expands_balanced (by decide) (by decide) (by decide) n10 n11 (by decide) (by decide)
  have e3 : ∀ w, Expands 0 forkPs 3 w ↔ ∃ n, w = List.replicate n 10 ++ List.replicate n 12 := fun w =>
    expands_balanced (by decide) (by decide) (by decide) n10 n12 (by decide) (by decide)
  have hterm : ∀ {w}, ExpandsAll 0 forkPs [13] w → w = [13] := by
    intro w h
    rw [ExpandsAll.single] at h
    generalize hx : 13 = y at h
    cases h with
    | leaf => rfl
    | node q _ hq => exact absurd ⟨q, hq, hx.symm⟩ n13
  rw [sentence_iff_expands (by unfold IsNonTerminal; decide)]
  constructor
  · intro h
    generalize hx : 1 = y at h
    cases h with
    | leaf _ hy => subst hx; exact absurd (by unfold IsNonTerminal; decide) hy
    | node q _ hq hall =>
      have : ∀ q ∈ forkPs, 1 = q.input → q = ⟨1, [2, 13]⟩ ∨ q = ⟨1, [3, 13]⟩ := by decide
      have := this q hq hx
      rcases this with rfl | rfl
      · rw [show rhs 0 (⟨1, [2, 13]⟩ : Production Nat) = [2, 13] from rfl] at hall
        cases hall with
        | cons _ _ w1 w2 k1 k2 =>
          obtain ⟨n, rfl⟩ := (e2 _).1 k1
          rw [hterm k2]
          exact ⟨n, .inl rfl⟩
      · rw [show rhs 0 (⟨1, [3, 13]⟩ : Production Nat) = [3, 13] from rfl] at hall
        cases hall with
        | cons _ _ w1 w2 k1 k2 =>
          obtain ⟨n, rfl⟩ := (e3 _).1 k1
          rw [hterm k2]
          exact ⟨n, .inr rfl⟩
  · rintro ⟨n, rfl | rfl⟩
    · exact Expands.node ⟨1, [2, 13]⟩ _ (by decide) (.cons _ _ _ _ ((e2 _).2 ⟨n, rfl⟩)
        (ExpandsAll.single.2 (.leaf _ n13 (by decide))))
    · exact Expands.node ⟨1, [3, 13]⟩ _ (by decide) (.cons _ _ _ _ ((e3 _).2 ⟨n, rfl⟩)
        (ExpandsAll.single.2 (.leaf _ n13 (by decide))))

theorem forkPs_endMarked : EndMarked 0 1 13 forkPs := by
  refine ⟨by decide, by unfold IsNonTerminal; decide, by decide, ?_, by decide⟩
  intro p hp hi
  have : p.output = [2] ++ [13] ∨ p.output = [3] ++ [13] := by
    revert p
    decide
  rcases this with h | h
  · exact ⟨_, h, by decide⟩
  · exact ⟨_, h, by decide⟩

/-- **C105**, with several productions in a cell. The grammar `S → A $ | B $`, `A → a A b | ε`, `B → a B c | ε` has two
productions in a cell of `S`, and its parser, which tries them in order, does decide the language: on inputs whose last
token is the only end marker it returns `Ok` for `aⁿ bⁿ $` and `aⁿ cⁿ $` and `Err` for all others. -/
theorem C105_conflict_decides (h : HashOrder Nat) : ∃ g, Grammar.new h 0 1 forkPs = .ok g ∧
    ∀ p : Parser σ L Nat, Built h g none p → ¬ ConflictFree p.transitions ∧
      ∀ (tokens : List (Token L Nat)), EndsWith 13 tokens → ∀ s : σ,
        (Forked 10 11 12 13 (tokens.map (·.tType)) → ∃ tree, Parses p tokens s (.ok tree) s) ∧
        (¬ Forked 10 11 12 13 (tokens.map (·.tType)) → ∃ f s', Parses p tokens s (.err f) s') := by
  obtain ⟨g, hg⟩ := (Grammar.new_eq_ok_iff h 0 1 forkPs).2 (by unfold WellFormed; decide)
  refine ⟨g, hg, fun p hp => ?_⟩
  obtain ⟨g0, p0, hg0, hp0, hall, hc⟩ : ∃ g p, Grammar.new (HashOrder.id Nat) 0 1 forkPs = .ok g ∧
      Built (σ := Unit) (L := Unit) (HashOrder.id Nat) g none p ∧
      (∀ x ∈ [2, 3], ∀ a ∈ forkPs.flatMap (·.output), ((p.transitions.getProductions x a).getD []).length ≤ 1) ∧
      p.transitions.getProductions 1 10 = some [⟨1, [2, 13]⟩, ⟨1, [3, 13]⟩] :=
    ⟨_, _, rfl, Parser.built_of_eval (n := 12) rfl, by decide, by decide⟩
  obtain ⟨ff, hff, e⟩ := (Parser.built_iff hg).1 hp
  obtain ⟨ff0, hff0, e0⟩ := (Parser.built_iff hg0).1 hp0
  have ht : ∀ x a, p.transitions.getProductions x a = p0.transitions.getProductions x a :=
    C11_table_hash_independent h (HashOrder.id Nat) 0 1 forkPs g g0 ff ff0 p.transitions p0.transitions hg hg0 hff hff0
      (Parser.from_eq_ok e).2.2 (Parser.from_eq_ok e0).2.2
  obtain ⟨t, h1, h2, _⟩ := C12_table_cells h 0 1 forkPs g hg ff hff
  rw [(Parser.from_eq_ok e).2.2] at h1
  cases h1
  have hadj : NoAdjacentRepeat forkPs := noAdjacentRepeat_of (by decide)
  have hnlr : NotLeftRecursive 0 forkPs := notLeftRecursive_of_rank (fun x => x == 2 || x == 3)
    (fun x => if x = 1 then 2 else if x < 10 then 1 else 0) (by decide)
  refine ⟨fun hcf => ?_, fun tokens hin s => ?_⟩
  · have := hcf 1 10 _ ((ht 1 10).trans hc)
    simp at this
  · have hpf : ∀ x, IsNonTerminal forkPs x →
        (∀ a, (candidates p.transitions x a).length ≤ 1) ∨ PrefixFree 0 forkPs x := by
      intro x hx
      by_cases hx1 : x = 1
      · subst hx1
        right
        intro u v hu huv hall
        have hs1 : Sentence 0 1 forkPs u := ⟨hu, fun a ha => hall a (by simp [ha])⟩
        obtain ⟨w1, rfl, -⟩ := sentence_ends (by unfold WellFormed; decide) forkPs_endMarked hx hs1
        obtain ⟨w2, e2, hn⟩ := sentence_ends (by unfold WellFormed; decide) forkPs_endMarked hx ⟨huv, hall⟩
        rcases List.eq_nil_or_concat v with rfl | ⟨v', z, rfl⟩
        · rfl
        · rw [List.concat_eq_append, ← List.append_assoc] at e2
          exact absurd (by rw [← (List.append_inj' e2 rfl).1]; simp) hn
      · left
        intro a
        unfold candidates
        cases hl : p.transitions.getProductions x a with
        | none => simp
        | some l =>
          obtain ⟨⟨q, hq, hqx⟩, ⟨q', hq', hqa⟩, _⟩ := (h2 x a).1 (by simp [hl])
          have hx' : x ∈ [2, 3] := by
            have : ∀ q ∈ forkPs, q.input = 1 ∨ q.input ∈ [2, 3] := by decide
            rcases this q hq with h | h
            · exact absurd (hqx.symm.trans h) hx1
            · rwa [hqx] at h
          have := hall x hx' a (List.mem_flatMap.2 ⟨q', hq', hqa⟩)
          rw [← ht, hl] at this
          simpa using this
    have := C48_prefix_free_decides h 0 1 forkPs g hg p hp hadj hnlr 13 forkPs_endMarked hpf tokens hin s
    rw [forkPs_sentence] at this
    exact ⟨fun hf => (this.1 hf).imp fun _ h => h.1, this.2⟩

/-! ## With sets of the user -/

/-- `S → A $`, `A → a A X | ε`, `X → b B | c C`, `B → ε`, `C → ε`. -/
def suppliedPs : List (Production Nat) :=
  [⟨1, [2, 13]⟩, ⟨2, [10, 2, 3]⟩, ⟨2, [0]⟩, ⟨3, [11, 4]⟩, ⟨3, [12, 5]⟩, ⟨4, [0]⟩, ⟨5, [0]⟩]

/-- The textbook's sets for `suppliedPs`, but without `c` in FOLLOW(`B`) and `b` in FOLLOW(`C`). -/
def suppliedSets : FirstFollow Nat :=
  ⟨[(1, [10, 13]), (2, [10, 0]), (3, [11, 12]), (4, [0]), (5, [0]),
    (10, [10]), (11, [11]), (12, [12]), (13, [13]), (0, [0])],
   [(1, []), (2, [11, 12, 13]), (3, [11, 12, 13]), (4, [11, 13]), (5, [12, 13])]⟩

namespace Supplied

variable {cand : Nat → Nat → List (List Nat)}

/-- What the table for `suppliedPs` and `suppliedSets` holds. -/
structure Holds (cand : Nat → Nat → List (List Nat)) : Prop where
  one : ∀ a out, out ∈ cand 1 a → out = [2, 13]
  one' : ∀ a ∈ [10, 11, 12, 13], [2, 13] ∈ cand 1 a
  two : ∀ a out, out ∈ cand 2 a → a = 10 ∧ out = [10, 2, 3] ∨ a ∈ [11, 12, 13] ∧ out = [0]
  two' : [10, 2, 3] ∈ cand 2 10 ∧ ∀ a ∈ [11, 12, 13], [0] ∈ cand 2 a
  three : ∀ a out, out ∈ cand 3 a → a = 11 ∧ out = [11, 4] ∨ a = 12 ∧ out = [12, 5]
  three' : [11, 4] ∈ cand 3 11 ∧ [12, 5] ∈ cand 3 12
  four : ∀ a out, out ∈ cand 4 a → a ∈ [11, 13] ∧ out = [0]
  four' : ∀ a ∈ [11, 13], [0] ∈ cand 4 a
  five : ∀ a out, out ∈ cand 5 a → a ∈ [12, 13] ∧ out = [0]
  five' : ∀ a ∈ [12, 13], [0] ∈ cand 5 a

theorem nt {x : Nat} : IsNonTerminal suppliedPs x ↔ x ∈ [1, 2, 3, 4, 5] := by
  constructor
  · rintro ⟨q, hq, rfl⟩
    revert q
    decide
  · intro hx
    have : ∀ x ∈ [1, 2, 3, 4, 5], ∃ q ∈ suppliedPs, q.input = x := by decide
    exact this x hx

theorem n0 : ¬ IsNonTerminal suppliedPs 0 := by rw [nt]; decide

/-- The stack behind `n` letters `a`. -/
def rest (n : Nat) : List Nat := List.replicate n 3 ++ [13]

theorem marks (H : Holds cand) (l : Nat) (x : Nat) (hl : l = 11 ∧ x = 4 ∨ l = 12 ∧ x = 5) (n : Nat) (w : List Nat) :
    Empties 0 suppliedPs cand (x :: rest n) w ↔ ∃ r, w = List.replicate n l ++ 13 :: r := by
  have hln : ¬ IsNonTerminal suppliedPs l := by rw [nt]; rcases hl with ⟨rfl, rfl⟩ | ⟨rfl, rfl⟩ <;> decide
  have hl0 : l ≠ 0 := by rcases hl with ⟨rfl, rfl⟩ | ⟨rfl, rfl⟩ <;> decide
  have hxn : IsNonTerminal suppliedPs x := by rw [nt]; rcases hl with ⟨rfl, rfl⟩ | ⟨rfl, rfl⟩ <;> decide
  have n13 : ¬ IsNonTerminal suppliedPs 13 := by rw [nt]; decide
  have n3 : IsNonTerminal suppliedPs 3 := by rw [nt]; decide
  have hx : ∀ a out, out ∈ cand x a → (a = l ∨ a = 13) ∧ out = [0] := by
    intro a out ho
    rcases hl with ⟨rfl, rfl⟩ | ⟨rfl, rfl⟩
    · simpa using H.four a out ho
    · simpa using H.five a out ho
  have hx' : ∀ a, a = l ∨ a = 13 → [0] ∈ cand x a := by
    intro a ha
    rcases hl with ⟨rfl, rfl⟩ | ⟨rfl, rfl⟩
    · exact H.four' a (by simpa using ha)
    · exact H.five' a (by simpa using ha)
  have h3 : ∀ out, out ∈ cand 3 l → out = [l, x] := by
    intro out ho
    rcases hl with ⟨rfl, rfl⟩ | ⟨rfl, rfl⟩
    · simpa using H.three _ out ho
    · simpa using H.three _ out ho
  have h3' : [l, x] ∈ cand 3 l := by
    rcases hl with ⟨rfl, rfl⟩ | ⟨rfl, rfl⟩
    · exact H.three'.1
    · exact H.three'.2
  have hpop : ∀ st w, Empties 0 suppliedPs cand (x :: st) w ↔
      ∃ a w', w = a :: w' ∧ (a = l ∨ a = 13) ∧ Empties 0 suppliedPs cand st w := by
    intro st w
    constructor
    · intro h
      obtain ⟨a, w', out, rfl, ho, h⟩ := StackMachine.inv_expand n0 hxn h
      obtain ⟨ha, rfl⟩ := hx a out ho
      exact ⟨a, w', rfl, ha, StackMachine.inv_skip n0 h⟩
    · rintro ⟨a, w', rfl, ha, h⟩
      exact .expand x a [0] _ _ hxn (hx' a ha) (.skip _ _ h)
  induction n generalizing w with
  | zero =>
    rw [hpop]
    constructor
    · rintro ⟨a, w', rfl, -, h⟩
      obtain ⟨w'', e, -⟩ := StackMachine.inv_read n13 (by decide) h
      exact ⟨w'', e⟩
    · rintro ⟨r, rfl⟩
      exact ⟨13, r, rfl, .inr rfl, .read _ _ _ n13 (by decide) (.done _)⟩
  | succ n ih =>
    rw [hpop]
    constructor
    · rintro ⟨a, w', rfl, ha, h⟩
      obtain ⟨a', w'', out, e, ho, h⟩ := StackMachine.inv_expand n0 n3 h
      simp only [List.cons.injEq] at e
      obtain ⟨rfl, rfl⟩ := e
      rcases ha with rfl | rfl
      · rw [h3 out ho] at h
        obtain ⟨w, e, h⟩ := StackMachine.inv_read hln hl0 h
        simp only [List.cons.injEq, true_and] at e
        subst e
        obtain ⟨r, rfl⟩ := (ih _).1 h
        exact ⟨r, by simp [List.replicate_succ]⟩
      · have := H.three 13 out ho
        simp at this
    · rintro ⟨r, rfl⟩
      refine ⟨l, List.replicate n l ++ 13 :: r, by simp [List.replicate_succ], .inl rfl, ?_⟩
      rw [List.replicate_succ, List.cons_append]
      exact .expand 3 l [l, x] _ _ n3 h3' (.read _ _ _ hln hl0 ((ih _).2 ⟨r, rfl⟩))

theorem rest_iff (H : Holds cand) (n : Nat) (w : List Nat) : Empties 0 suppliedPs cand (rest n) w ↔
    ∃ r, w = List.replicate n 11 ++ 13 :: r ∨ w = List.replicate n 12 ++ 13 :: r := by
  have n13 : ¬ IsNonTerminal suppliedPs 13 := by rw [nt]; decide
  have n11 : ¬ IsNonTerminal suppliedPs 11 := by rw [nt]; decide
  have n12 : ¬ IsNonTerminal suppliedPs 12 := by rw [nt]; decide
  have n3 : IsNonTerminal suppliedPs 3 := by rw [nt]; decide
  cases n with
  | zero =>
    constructor
    · intro h
      obtain ⟨w', e, -⟩ := StackMachine.inv_read n13 (by decide) h
      exact ⟨w', .inl e⟩
    · rintro ⟨r, rfl | rfl⟩ <;> exact .read _ _ _ n13 (by decide) (.done _)
  | succ n =>
    constructor
    · intro h
      obtain ⟨a, w', out, rfl, ho, h⟩ := StackMachine.inv_expand n0 n3 h
      rcases H.three a out ho with ⟨rfl, rfl⟩ | ⟨rfl, rfl⟩
      · obtain ⟨w, e, h⟩ := StackMachine.inv_read n11 (by decide) h
        simp only [List.cons.injEq, true_and] at e
        subst e
        obtain ⟨r, rfl⟩ := (marks H 11 4 (.inl ⟨rfl, rfl⟩) n _).1 h
        exact ⟨r, .inl (by simp [List.replicate_succ])⟩
      · obtain ⟨w, e, h⟩ := StackMachine.inv_read n12 (by decide) h
        simp only [List.cons.injEq, true_and] at e
        subst e
        obtain ⟨r, rfl⟩ := (marks H 12 5 (.inr ⟨rfl, rfl⟩) n _).1 h
        exact ⟨r, .inr (by simp [List.replicate_succ])⟩
    · rintro ⟨r, rfl | rfl⟩
      · rw [List.replicate_succ, List.cons_append]
        exact .expand 3 11 [11, 4] _ _ n3 H.three'.1 (.read _ _ _ n11 (by decide)
          ((marks H 11 4 (.inl ⟨rfl, rfl⟩) n _).2 ⟨r, rfl⟩))
      · rw [List.replicate_succ, List.cons_append]
        exact .expand 3 12 [12, 5] _ _ n3 H.three'.2 (.read _ _ _ n12 (by decide)
          ((marks H 12 5 (.inr ⟨rfl, rfl⟩) n _).2 ⟨r, rfl⟩))

theorem count_iff (H : Holds cand) (n : Nat) (w : List Nat) : Empties 0 suppliedPs cand (2 :: rest n) w ↔
    ∃ m r, w = List.replicate m 10 ++ (List.replicate (n + m) 11 ++ 13 :: r) ∨
      w = List.replicate m 10 ++ (List.replicate (n + m) 12 ++ 13 :: r) := by
  have n10 : ¬ IsNonTerminal suppliedPs 10 := by rw [nt]; decide
  have n2 : IsNonTerminal suppliedPs 2 := by rw [nt]; decide
  have hstep : ∀ n w, Empties 0 suppliedPs cand (2 :: rest n) w ↔
      (∃ w', w = 10 :: w' ∧ Empties 0 suppliedPs cand (2 :: rest (n + 1)) w') ∨
      (∃ a w', w = a :: w' ∧ a ∈ [11, 12, 13] ∧ Empties 0 suppliedPs cand (rest n) w) := by
    intro n w
    constructor
    · intro h
      obtain ⟨a, w', out, rfl, ho, h⟩ := StackMachine.inv_expand n0 n2 h
      rcases H.two a out ho with ⟨rfl, rfl⟩ | ⟨ha, rfl⟩
      · obtain ⟨w, e, h⟩ := StackMachine.inv_read n10 (by decide) h
        simp only [List.cons.injEq, true_and] at e
        subst e
        exact .inl ⟨_, rfl, h⟩
      · exact .inr ⟨a, w', rfl, ha, StackMachine.inv_skip n0 h⟩
    · rintro (⟨w', rfl, h⟩ | ⟨a, w', rfl, ha, h⟩)
      · exact .expand 2 10 [10, 2, 3] _ _ n2 H.two'.1 (.read _ _ _ n10 (by decide) h)
      · exact .expand 2 a [0] _ _ n2 (H.two'.2 a ha) (.skip _ _ h)
  induction w generalizing n with
  | nil =>
    rw [hstep]
    constructor
    · rintro (⟨w', h, -⟩ | ⟨a, w', h, -⟩) <;> simp at h
    · rintro ⟨m, r, h | h⟩ <;> simp at h
  | cons b w ih =>
    rw [hstep]
    constructor
    · rintro (⟨w', e, h⟩ | ⟨a, w', e, ha, h⟩)
      · simp only [List.cons.injEq] at e
        obtain ⟨rfl, rfl⟩ := e
        obtain ⟨m, r, h⟩ := (ih (n + 1)).1 h
        refine ⟨m + 1, r, ?_⟩
        rw [show n + (m + 1) = n + 1 + m by omega, List.replicate_succ]
        rcases h with h | h
        · exact .inl (by rw [h]; rfl)
        · exact .inr (by rw [h]; rfl)
      · obtain ⟨r, h⟩ := (rest_iff H n _).1 h
        exact ⟨0, r, by simpa using h⟩
    · rintro ⟨m, r, h⟩
      cases m with
      | zero =>
        simp only [List.replicate_zero, List.nil_append, Nat.add_zero] at h
        refine .inr ⟨b, w, rfl, ?_, (rest_iff H n _).2 ⟨r, h⟩⟩
        cases n with
        | zero =>
          simp only [List.replicate_zero, List.nil_append, List.cons.injEq] at h
          rcases h with h | h <;> simp [h.1]
        | succ n =>
          simp only [List.replicate_succ, List.cons_append, List.cons.injEq] at h
          rcases h with h | h <;> simp [h.1]
      | succ m =>
        rw [show n + (m + 1) = n + 1 + m by omega, List.replicate_succ] at h
        simp only [List.cons_append, List.cons.injEq] at h
        have hb : b = 10 := by rcases h with h | h <;> exact h.1
        subst hb
        refine .inl ⟨w, rfl, (ih (n + 1)).2 ⟨m, r, ?_⟩⟩
        rcases h with h | h
        · exact .inl h.2
        · exact .inr h.2

theorem start_iff (H : Holds cand) (w : List Nat) : Empties 0 suppliedPs cand [1] w ↔
    ∃ w' r, w = w' ++ r ∧ Forked 10 11 12 13 w' := by
  have n1 : IsNonTerminal suppliedPs 1 := by rw [nt]; decide
  have hcount := count_iff H 0 w
  have : Empties 0 suppliedPs cand [1] w ↔ Empties 0 suppliedPs cand (2 :: rest 0) w := by
    constructor
    · intro h
      obtain ⟨a, w', out, rfl, ho, h⟩ := StackMachine.inv_expand n0 n1 h
      rw [H.one a out ho] at h
      exact h
    · intro h
      obtain ⟨m, r, hw⟩ := hcount.1 h
      obtain ⟨a, w', rfl, ha⟩ : ∃ a w', w = a :: w' ∧ a ∈ [10, 11, 12, 13] := by
        cases m with
        | zero => exact ⟨13, r, by simpa using hw, by decide⟩
        | succ m =>
          simp only [List.replicate_succ, List.cons_append] at hw
          rcases hw with h | h
          · exact ⟨10, _, h, by decide⟩
          · exact ⟨10, _, h, by decide⟩
      exact .expand 1 a [2, 13] _ _ n1 (H.one' a ha) h
  rw [this, hcount]
  constructor
  · rintro ⟨m, r, h | h⟩
    · exact ⟨_, r, by rw [h]; simp, m, .inl rfl⟩
    · exact ⟨_, r, by rw [h]; simp, m, .inr rfl⟩
  · rintro ⟨_, r, rfl, m, rfl | rfl⟩
    · exact ⟨m, r, .inl (by simp)⟩
    · exact ⟨m, r, .inr (by simp)⟩

end Supplied

/-- **C105**, with sets of the user. With the textbook's sets for `S → A $`, `A → a A X | ε`, `X → b B | c C`, `B → ε`,
`C → ε`, but without `c` in FOLLOW(`B`) and without `b` in FOLLOW(`C`), the parser has a table without conflicts and on
inputs whose last token is the only end marker it returns `Ok` exactly for `aⁿ bⁿ $` and `aⁿ cⁿ $`. -/
theorem C105_supplied_sets (h : HashOrder Nat) : ∃ (g : Grammar Nat) (p : Parser σ L Nat), Grammar.new h 0 1 suppliedPs = .ok g ∧
    Parser.fromGrammarAndFirstFollowSymbols h g suppliedSets = .ok p ∧ ConflictFree p.transitions ∧
    NoAdjacentRepeat suppliedPs ∧ EndMarked 0 1 13 suppliedPs ∧
    ∀ tokens : List (Token L Nat), EndsWith 13 tokens → ∀ s,
      ((∃ tree s', Parses p tokens s (.ok tree) s') ↔ Forked 10 11 12 13 (tokens.map (·.tType))) := by
  obtain ⟨g, hg⟩ := (Grammar.new_eq_ok_iff h 0 1 suppliedPs).2 (by unfold WellFormed; decide)
  obtain ⟨g0, p0, hg0, hp0, hall⟩ : ∃ g p, Grammar.new (HashOrder.id Nat) 0 1 suppliedPs = .ok g ∧
      Parser.fromGrammarAndFirstFollowSymbols (HashOrder.id Nat) g suppliedSets = .ok (p : Parser Unit Unit Nat) ∧
      ((∀ x ∈ [1, 2, 3, 4, 5], ∀ a ∈ [0, 10, 11, 12, 13],
        ((p.transitions.getProductions x a).getD []).map (·.output) =
          if x = 1 ∧ a ∈ [10, 11, 12, 13] then [[2, 13]]
          else if x = 2 ∧ a = 10 then [[10, 2, 3]]
          else if x = 2 ∧ a ∈ [11, 12, 13] then [[0]]
          else if x = 3 ∧ a = 11 then [[11, 4]]
          else if x = 3 ∧ a = 12 then [[12, 5]]
          else if x = 4 ∧ a ∈ [11, 13] then [[0]]
          else if x = 5 ∧ a ∈ [12, 13] then [[0]] else [])) :=
    ⟨_, _, rfl, rfl, by decide⟩
  have hsup : Supplies 0 suppliedPs suppliedSets := by
    by_contra hc
    have := (C44_parser_any_sets (σ := Unit) (L := Unit) (HashOrder.id Nat) 0 1 suppliedPs g0 hg0 suppliedSets).2 hc
    rw [hp0] at this
    simp at this
  obtain ⟨p, hp⟩ := (C44_parser_any_sets (σ := σ) (L := L) h 0 1 suppliedPs g hg suppliedSets).1 hsup
  have ht := (Parser.from_eq_ok hp).2.2
  have ht0 := (Parser.from_eq_ok hp0).2.2
  obtain ⟨hdom, hcell⟩ := (C44_table_any_sets h 0 1 suppliedPs g hg suppliedSets).2.2 _ ht
  obtain ⟨hdom0, hcell0⟩ := (C44_table_any_sets (HashOrder.id Nat) 0 1 suppliedPs g0 hg0 suppliedSets).2.2 _ ht0
  have hsame : ∀ x a, p.transitions.getProductions x a = p0.transitions.getProductions x a := by
    intro x a
    cases hl : p.transitions.getProductions x a with
    | none =>
      cases hl0 : p0.transitions.getProductions x a with
      | none => rfl
      | some l0 =>
        have := (hdom x a).2 ((hdom0 x a).1 (by simp [hl0]))
        simp [hl] at this
    | some l =>
      cases hl0 : p0.transitions.getProductions x a with
      | none =>
        have := (hdom0 x a).2 ((hdom x a).1 (by simp [hl]))
        simp [hl0] at this
      | some l0 =>
        obtain ⟨m, e⟩ := hcell x a l hl
        obtain ⟨m0, e0⟩ := hcell0 x a l0 hl0
        congr 1
        rw [e, e0]
        apply List.filter_congr
        intro q _
        rw [decide_eq_decide, m, m0]
  have hcand : ∀ x a, candidates p.transitions x a = [] ∨ x ∈ [1, 2, 3, 4, 5] ∧ a ∈ [0, 10, 11, 12, 13] := by
    intro x a
    by_cases hc : x ∈ [1, 2, 3, 4, 5] ∧ a ∈ [0, 10, 11, 12, 13]
    · exact .inr hc
    · left
      unfold candidates
      cases hl : p.transitions.getProductions x a with
      | none => rfl
      | some l =>
        obtain ⟨h1, ⟨q, hq, hqa⟩, -⟩ := (hdom x a).1 (by simp [hl])
        have h3 := Supplied.nt.1 h1
        have h4 : ∀ q ∈ suppliedPs, ∀ a, a ∈ q.output → ¬ a ∈ [1, 2, 3, 4, 5] → a ∈ [0, 10, 11, 12, 13] := by decide
        exact absurd ⟨h3, h4 q hq a hqa fun h5 => by
          have h6 := ((hdom x a).1 (by simp [hl])).2.2
          exact h6 (Supplied.nt.2 h5)⟩ hc
  have heval : ∀ x a, candidates p.transitions x a = if x = 1 ∧ a ∈ [10, 11, 12, 13] then [[2, 13]]
          else if x = 2 ∧ a = 10 then [[10, 2, 3]]
          else if x = 2 ∧ a ∈ [11, 12, 13] then [[0]]
          else if x = 3 ∧ a = 11 then [[11, 4]]
          else if x = 3 ∧ a = 12 then [[12, 5]]
          else if x = 4 ∧ a ∈ [11, 13] then [[0]]
          else if x = 5 ∧ a ∈ [12, 13] then [[0]] else [] := by
    intro x a
    by_cases hc : x ∈ [1, 2, 3, 4, 5] ∧ a ∈ [0, 10, 11, 12, 13]
    · unfold candidates
      rw [hsame]
      exact hall x hc.1 a hc.2
    · rw [(hcand x a).resolve_right hc]
      simp only [List.mem_cons, List.not_mem_nil, or_false] at hc ⊢
      repeat' rw [if_neg (by omega)]
  have H : Supplied.Holds (candidates p.transitions) := by
    constructor
    · intro a out ho
      rw [heval] at ho
      by_cases ha : a ∈ [10, 11, 12, 13] <;> simp [ha] at ho
      exact ho
    · intro a ha
      rw [heval, if_pos ⟨rfl, ha⟩]
      simp
    · intro a out ho
      rw [heval] at ho
      by_cases ha : a = 10
      · subst ha
        exact .inl ⟨rfl, by simpa using ho⟩
      · by_cases ha' : a ∈ [11, 12, 13] <;> simp [ha, ha'] at ho
        exact .inr ⟨ha', ho⟩
    · refine ⟨by rw [heval]; simp, fun a ha => ?_⟩
      rw [heval]
      rcases (by simpa using ha : a = 11 ∨ a = 12 ∨ a = 13) with rfl | rfl | rfl <;> simp
    · intro a out ho
      rw [heval] at ho
      by_cases ha : a = 11
      · subst ha
        exact .inl ⟨rfl, by simpa using ho⟩
      · by_cases ha' : a = 12 <;> simp [ha, ha'] at ho
        exact .inr ⟨ha', ho⟩
    · refine ⟨by rw [heval]; simp, by rw [heval]; simp⟩
    · intro a out ho
      rw [heval] at ho
      by_cases ha' : a ∈ [11, 13] <;> simp [ha'] at ho
      exact ⟨ha', ho⟩
    · intro a ha
      rw [heval]
      revert ha; simp; try omega
    · intro a out ho
      rw [heval] at ho
      by_cases ha' : a ∈ [12, 13] <;> simp [ha'] at ho
      exact ⟨ha', ho⟩
    · intro a ha
      rw [heval]
      revert ha; simp; try omega
  have hcf : ConflictFree p.transitions := by
    intro x a l hl
    have e := heval x a
    unfold candidates at e
    rw [hl, Option.getD_some] at e
    rw [← List.length_map (f := fun q : Production Nat => q.output), e]
    split_ifs <;> simp
  have hinit : IsNonTerminal suppliedPs 1 := by rw [Supplied.nt]; decide
  refine ⟨g, p, hg, hp, hcf, noAdjacentRepeat_of (by decide),
    ⟨by decide, by rw [Supplied.nt]; decide, by decide, ?_, by decide⟩, fun tokens hin s => ?_⟩
  · intro q hq hqi
    have : ∀ q ∈ suppliedPs, q.input = 1 → q.output = [2] ++ [13] := by decide
    exact ⟨[2], this q hq hqi, by decide⟩
  · rw [C104_machine h 0 1 suppliedPs g hg p (.inr ⟨suppliedSets, hp⟩) hcf hinit tokens s, Supplied.start_iff H]
    constructor
    · rintro ⟨w', r, hw, hf⟩
      obtain ⟨ts, t, rfl, ht, hts⟩ := hin
      obtain ⟨w'', rfl⟩ : ∃ w'', w' = w'' ++ [13] := by
        rcases hf with ⟨n, rfl | rfl⟩
        · exact ⟨_, rfl⟩
        · exact ⟨_, rfl⟩
      have hr : r = [] := by
        rcases List.eq_nil_or_concat r with rfl | ⟨r', x, rfl⟩
        · rfl
        · exfalso
          rw [List.map_append, List.concat_eq_append, ← List.append_assoc] at hw
          have := (List.append_inj' hw rfl).1
          have hm : 13 ∈ ts.map (·.tType) := by rw [this]; simp
          obtain ⟨u, hu, hu'⟩ := List.mem_map.1 hm
          exact hts u hu hu'
      rw [hw, hr, List.append_nil]
      exact hf
    · intro hf
      exact ⟨_, [], by simp, hf⟩

/-- The grammar of `C105_supplied_sets` with the computed sets meets the hypotheses of the limit: its parser has a table
without conflicts and accepts `a a b c $`, which is no sentence of the language above. -/
theorem C105_example : ∃ g p t, Grammar.new (HashOrder.id Nat) 0 1 suppliedPs = .ok g ∧
    Built (HashOrder.id Nat) g none (p : Parser Unit Unit Nat) ∧ ConflictFree p.transitions ∧
    NoAdjacentRepeat suppliedPs ∧ EndMarked 0 1 13 suppliedPs ∧
    Parses p [⟨none, 10⟩, ⟨none, 10⟩, ⟨none, 11⟩, ⟨none, 12⟩, ⟨none, 13⟩] () (.ok t) () ∧
    ¬ Forked 10 11 12 13 [10, 10, 11, 12, 13] := by
  obtain ⟨g, p, t, hg, hp, hr, hall⟩ : ∃ g p t,
      Grammar.new (HashOrder.id Nat) 0 1 suppliedPs = .ok g ∧
      Built (HashOrder.id Nat) g none (p : Parser Unit Unit Nat) ∧
      Parses p [⟨none, 10⟩, ⟨none, 10⟩, ⟨none, 11⟩, ⟨none, 12⟩, ⟨none, 13⟩] () (.ok t) () ∧
      (∀ x ∈ suppliedPs.map (·.input), ∀ a ∈ suppliedPs.flatMap (·.output),
        ((p.transitions.getProductions x a).getD []).length ≤ 1) :=
    ⟨_, _, _, rfl, Parser.built_of_eval (n := 12) rfl, Parser.parse_returns (n := 60) rfl, by decide⟩
  refine ⟨g, p, t, hg, hp, conflictFree_of_check hg hp hall, noAdjacentRepeat_of (by decide),
    ⟨by decide, by rw [Supplied.nt]; decide, by decide, ?_, by decide⟩, hr, ?_⟩
  · intro q hq hqi
    have : ∀ q ∈ suppliedPs, q.input = 1 → q.output = [2] ++ [13] := by decide
    exact ⟨[2], this q hq hqi, by decide⟩
  · rintro ⟨n, e | e⟩
    · have := congrArg (List.count 12) e
      simp [List.count_replicate] at this
    · have := congrArg (List.count 11) e
      simp [List.count_replicate] at this

end Verif.Props
