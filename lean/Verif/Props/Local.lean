import Verif.Proof.Local
import Verif.Proof.LocalEnd
import Verif.Spec.Viable
import Verif.Props.Recovery
import Verif.Props.Reduced

/-!
# Properties C50, C51: what the parser does not look at
-/

set_option linter.unusedSectionVars false

namespace Verif.Props

open Verif.Spec Verif.Examples

variable {σ L T : Type} [DecidableEq T]

/-- A search on one input is a search on the other one. -/
theorem recovers_local {h : HashOrder T} {eps init : T} {ps : List (Production T)} {g : Grammar T}
    (hg : Grammar.new h eps init ps = .ok g) {p : Parser σ L T} (hp : Built h g none p)
    {w : List (Token L T)} {a : Token L T}
    (hbad : ¬ ViablePrefix eps init ps (w.map (·.tType) ++ [a.tType]))
    {t : Token L T} {rest rest' ts ts' : List (Token L T)} (e1 : w ++ a :: rest = t :: ts)
    (e2 : w ++ a :: rest' = t :: ts') {s : σ}
    {o : Recovery.Outcome σ (Recovery.Derived L T) (FailedSymbol L T)}
    (ho : Recovers eps init ps p none t ts s o) : Recovers eps init ps p none t ts' s o := by
  have hwf := (Grammar.grammarOf_of_new hg).wf
  obtain ⟨P, -⟩ := Parser.tableParser_of_built hg hp
  unfold Recovers at ho ⊢
  have hcand : ∀ x a out, out ∈ candidates p.transitions x a → (⟨x, out⟩ : Production T) ∈ ps :=
    fun x a out h' => P.cand x a out (by rw [Parser.getTokenProductions_eq]; exact h')
  rw [← e1] at ho
  rw [← e2]
  by_cases hnt : IsNonTerminal ps init
  · have hag : ∀ i ≤ w.length, (w ++ a :: rest)[i]? = (w ++ a :: rest')[i]? := by
      intro i hi
      rcases Nat.lt_or_ge i w.length with h1 | h1
      · rw [List.getElem?_append_left h1, List.getElem?_append_left h1]
      · have : i = w.length := by omega
        subst this
        simp
    rcases Parser.Recovery.choice_near hwf hcand hag ho (Nat.zero_le _) (fun o ho => hcand _ _ _ ho) with
      ⟨v, h1, h2⟩ | ⟨h1, _⟩
    · exfalso
      have hseg : Parser.Recovery.seg (w ++ a :: rest) 0 (w.length + 1) =
          w.map (·.tType) ++ [a.tType] := by
        simp [Parser.Recovery.seg, List.take_append]
      rw [hseg] at h1 h2
      refine hbad ⟨?_, v, h1⟩
      intro b hb
      obtain ⟨h3, h4⟩ := h2 b hb
      refine ⟨⟨?_, h3⟩, h4⟩
      rcases h1.symbols hwf b (by simp only [List.mem_append]; exact .inl (List.mem_append.1 hb)) with
        h5 | ⟨_, h5⟩
      · simp only [List.mem_singleton] at h5
        exact absurd (h5 ▸ hnt) h3
      · exact h5
    · exact h1
  · have hnil : candidates p.transitions init t.tType = [] := by
      cases hc : candidates p.transitions init t.tType with
      | nil => rfl
      | cons o os => exact absurd ⟨_, hcand init t.tType o (by simp [hc]), rfl⟩ hnt
    rw [hnil] at ho ⊢
    cases ho with
    | derived _ _ _ _ _ _ _ h => cases h
    | panicked _ _ _ _ _ h => cases h
    | fixed _ _ _ _ _ _ _ _ _ _ ha => simp [Recovery.answer] at ha
    | failed _ _ _ _ _ _ _ _ h ha =>
      cases h
      exact .failed _ _ _ _ _ _ _ _ (.none _ _ _ _) (by simpa [Recovery.answer] using ha)
    | solverPanics _ _ _ _ _ _ _ _ _ ha => simp [Recovery.answer] at ha

/-- **C50.** Without a solver, what stands behind the first token that cannot continue the input does
not matter: if the tokens `w` followed by `a` are no viable prefix, `parse_from_tokens` does the same
(returns the same value, panics, or does not return) on all inputs that begin with them. -/
theorem C50_reads_no_further (h : HashOrder T) (eps init : T) (ps : List (Production T))
    (g : Grammar T) (hg : Grammar.new h eps init ps = .ok g) (p : Parser σ L T)
    (hp : Built h g none p) (w : List (Token L T)) (a : Token L T)
    (hbad : ¬ ViablePrefix eps init ps (w.map (·.tType) ++ [a.tType]))
    (rest rest' : List (Token L T)) (s : σ) :
    (∀ r s', Parses p (w ++ a :: rest) s r s' ↔ Parses p (w ++ a :: rest') s r s') ∧
    (ParsePanics p (w ++ a :: rest) s ↔ ParsePanics p (w ++ a :: rest') s) ∧
    (ParseDiverges p (w ++ a :: rest) s ↔ ParseDiverges p (w ++ a :: rest') s) := by
  obtain ⟨t, ts, ts', e1, e2⟩ : ∃ t ts ts', w ++ a :: rest = t :: ts ∧ w ++ a :: rest' = t :: ts' := by
    cases w with
    | nil => exact ⟨a, rest, rest', rfl, rfl⟩
    | cons b w => exact ⟨b, w ++ a :: rest, w ++ a :: rest', rfl, rfl⟩
  have hiff : ∀ o, Recovers eps init ps p none t ts s o ↔ Recovers eps init ps p none t ts' s o :=
    fun o => ⟨recovers_local hg hp hbad e1 e2, recovers_local hg hp hbad e2 e1⟩
  obtain ⟨h1, h2, h3⟩ := C38_exact_result h eps init ps g hg none p hp t ts s
  obtain ⟨h1', h2', h3'⟩ := C38_exact_result h eps init ps g hg none p hp t ts' s
  rw [e1, e2]
  refine ⟨fun r s' => ?_, ?_, ?_⟩
  · rw [h1, h1']; simp only [hiff]
  · rw [h2, h2', hiff]
  · rw [h3, h3']; simp only [hiff]

/-- Without a solver there is no state to change. -/
theorem state_of_none {eps init : T} {ps : List (Production T)} {p : Parser σ L T}
    (P : Parser.ParserOf eps init ps p) (hs : p.syntaxErrorSolver = none) {tokens : List (Token L T)}
    {s s' : σ} {r : ParseResult L T} (hr : Parses p tokens s r s') : s' = s := by
  cases tokens with
  | nil =>
    obtain ⟨n, hn⟩ := Parser.parses_at hr
    simp [Parser.parseFromTokens] at hn
  | cons t ts =>
    obtain ⟨n, hn⟩ := Parser.parses_at hr
    obtain ⟨o, h1, _⟩ := Parser.choice_of_parse P hs t ts n s (by rw [hn]; simp)
    rw [hn] at h1
    match o, h1 with
    | .found (_, _, _), h1 => simp [Parser.ParseOut] at h1; exact h1.2
    | .failed, h1 =>
      simp only [Parser.ParseOut, Out.ok.injEq, Prod.mk.injEq] at h1
      obtain ⟨_, _, h1⟩ := h1
      exact h1
    | .ranOut, h1 => simp [Parser.ParseOut] at h1

theorem sentence_viable {eps init : T} {ps : List (Production T)} {u z : List T}
    (h : Sentence eps init ps (u ++ z)) : ViablePrefix eps init ps u :=
  ⟨fun a ha => h.2 a (by simp [ha]), z, h.1⟩

/-- In a grammar whose non-terminals are productive, viable prefixes begin sentences. -/
theorem viable_iff_begins (h : HashOrder T) (eps init : T) (ps : List (Production T))
    (g : Grammar T) (hg : Grammar.new h eps init ps = .ok g) (hinit : IsNonTerminal ps init)
    (hprod : ∀ x, IsNonTerminal ps x → Productive eps ps x) (u : List T) :
    ViablePrefix eps init ps u ↔ BeginsSentence eps init ps u := by
  have hwf := (Grammar.grammarOf_of_new hg).wf
  constructor
  · rintro ⟨h1, v, h2⟩
    obtain ⟨z, h3, h4⟩ := derives_terminals (l := v) hprod (by
      intro x hx hnt
      rcases h2.symbols hwf x (by simp [hx]) with h5 | ⟨h5, h6⟩
      · simp only [List.mem_singleton] at h5
        exact absurd (h5 ▸ hinit) hnt
      · exact ⟨⟨h6, hnt⟩, h5⟩)
    refine ⟨z, h2.trans (Derives.append (.refl u) h3), ?_⟩
    intro a ha
    rcases List.mem_append.1 ha with ha | ha
    · exact h1 a ha
    · exact h4 a ha
  · rintro ⟨z, hz⟩
    exact sentence_viable hz

/-- **C50**, earliest detection: take an end-marked grammar without left recursion whose table has no
conflicts (and no output with two equal adjacent non-terminals). If no sentence begins with the tokens
`w` (without end marker) followed by `a`, then there is one error report that is the result for every
input that begins with them: whatever follows, complete or not. -/
theorem C50_err_at_first_bad_token (h : HashOrder T) (eps init : T) (ps : List (Production T))
    (g : Grammar T) (hg : Grammar.new h eps init ps = .ok g) (p : Parser σ L T)
    (hp : Built h g none p) (hcf : ConflictFree p.transitions) (hadj : NoAdjacentRepeat ps)
    (e : T) (hem : EndMarked eps init e ps) (hred : Reduced eps init ps)
    (hinit : IsNonTerminal ps init) (w : List (Token L T)) (a : Token L T)
    (hw : ∀ t ∈ w, t.tType ≠ e)
    (hbad : ¬ BeginsSentence eps init ps (w.map (·.tType) ++ [a.tType])) (s : σ) :
    ∃ f, ∀ rest, Parses p (w ++ a :: rest) s (.err f) s := by
  have hbad' : ¬ ViablePrefix eps init ps (w.map (·.tType) ++ [a.tType]) := by
    rwa [viable_iff_begins h eps init ps g hg hinit (fun x hx => (hred x hx).2)]
  obtain ⟨rest, hends⟩ : ∃ rest, EndsWith e (w ++ a :: rest) := by
    by_cases hae : a.tType = e
    · exact ⟨[], w, a, rfl, hae, hw⟩
    · refine ⟨[⟨none, e⟩], w ++ [a], ⟨none, e⟩, by simp, rfl, ?_⟩
      intro t ht
      rcases List.mem_append.1 ht with ht | ht
      · exact hw t ht
      · simp only [List.mem_singleton] at ht
        exact ht ▸ hae
  have hns : ¬ Sentence eps init ps ((w ++ a :: rest).map (·.tType)) := by
    intro hs
    refine hbad ⟨rest.map (·.tType), ?_⟩
    simpa using hs
  obtain ⟨f, s', hf⟩ := (C49_decides h eps init ps g hg p hp hcf hadj e hem hred _ hends s).2 hns
  have hs' : s' = s := by
    obtain ⟨P, hs⟩ := Parser.tableParser_of_built hg hp
    exact state_of_none P.toParserOf hs hf
  subst hs'
  refine ⟨f, fun rest' => ?_⟩
  exact ((C50_reads_no_further h eps init ps g hg p hp w a hbad' rest rest' s').1 _ _).1 hf

/-- **C51.** The parser of an end-marked grammar (without a solver) does not look behind the first end
marker of the input: what follows changes neither the result, nor whether there is one. -/
theorem C51_nothing_behind_end_marker (h : HashOrder T) (eps init : T) (ps : List (Production T))
    (g : Grammar T) (hg : Grammar.new h eps init ps = .ok g) (p : Parser σ L T)
    (hp : Built h g none p) (e : T) (hem : EndMarked eps init e ps) (tokens rest : List (Token L T))
    (hin : EndsWith e tokens) (s : σ) :
    (∀ r s', Parses p (tokens ++ rest) s r s' ↔ Parses p tokens s r s') ∧
    (ParsePanics p (tokens ++ rest) s ↔ ParsePanics p tokens s) ∧
    (ParseDiverges p (tokens ++ rest) s ↔ ParseDiverges p tokens s) := by
  obtain ⟨P, -⟩ := Parser.tableParser_of_built hg hp
  have hcand : ∀ x a out, out ∈ candidates p.transitions x a → (⟨x, out⟩ : Production T) ∈ ps :=
    fun x a out h' => P.cand x a out (by rw [Parser.getTokenProductions_eq]; exact h')
  obtain ⟨w, a, rfl, ha, hw⟩ := hin
  have hk : ∀ r : List (Token L T), ∀ i ≤ w.length, ∀ t, (w ++ a :: r)[i]? = some t →
      (t.tType = e ↔ i = w.length) := by
    intro r i hi t ht
    rcases Nat.lt_or_ge i w.length with h1 | h1
    · rw [List.getElem?_append_left h1] at ht
      have := hw t (List.mem_of_getElem? ht)
      exact ⟨fun h => absurd h this, fun h => by omega⟩
    · have : i = w.length := by omega
      subst this
      simp only [List.getElem?_append_right (Nat.le_refl _), Nat.sub_self, List.getElem?_cons_zero,
        Option.some.injEq] at ht
      subst ht
      simp [ha]
  have hag : ∀ r r' : List (Token L T), ∀ i ≤ w.length, (w ++ a :: r)[i]? = (w ++ a :: r')[i]? := by
    intro r r' i hi
    rcases Nat.lt_or_ge i w.length with h1 | h1
    · rw [List.getElem?_append_left h1, List.getElem?_append_left h1]
    · have : i = w.length := by omega
      subst this
      simp
  obtain ⟨t, ts, ts', e1, e2⟩ : ∃ t ts ts', w ++ a :: rest = t :: ts ∧ w ++ [a] = t :: ts' := by
    cases w with
    | nil => exact ⟨a, rest, [], rfl, rfl⟩
    | cons b w => exact ⟨b, w ++ a :: rest, w ++ [a], rfl, rfl⟩
  have hiff : ∀ o, Recovers eps init ps p none t ts s o ↔ Recovers eps init ps p none t ts' s o := by
    intro o
    unfold Recovers
    rw [← e1, ← e2]
    exact ⟨fun ho => (Parser.Recovery.choice_before hem hcand (hag _ _) (hk _) ho (Nat.zero_le _)
        (fun o ho => hcand _ _ _ ho)).1,
      fun ho => (Parser.Recovery.choice_before hem hcand (hag _ _) (hk _) ho (Nat.zero_le _)
        (fun o ho => hcand _ _ _ ho)).1⟩
  obtain ⟨h1, h2, h3⟩ := C38_exact_result h eps init ps g hg none p hp t ts s
  obtain ⟨h1', h2', h3'⟩ := C38_exact_result h eps init ps g hg none p hp t ts' s
  have e3 : w ++ [a] ++ rest = t :: ts := by rw [← e1]; simp
  rw [e3, e2]
  refine ⟨fun r s' => ?_, ?_, ?_⟩
  · rw [h1, h1']; simp only [hiff]
  · rw [h2, h2', hiff]
  · rw [h3, h3']; simp only [hiff]

/-! ## The hypotheses can be met -/

/-- `id id` begins no sentence of the expression grammar, but `id` does. -/
theorem expr_id_id : BeginsSentence 0 1 exprPs [15] ∧ ¬ BeginsSentence 0 1 exprPs [15, 15] := by
  obtain ⟨g, p, tree, f, hg, hp, ht, hf⟩ : ∃ g p tree f,
      Grammar.new (HashOrder.id Nat) 0 1 exprPs = .ok g ∧
      Built (σ := Unit) (L := Unit) (HashOrder.id Nat) g none p ∧
      Parses p [⟨none, 15⟩, ⟨none, 16⟩] () (.ok tree) () ∧
      ∀ rest, Parses p (⟨none, 15⟩ :: ⟨none, 15⟩ :: rest) () (.err f) () :=
    ⟨_, _, _, _, rfl, Parser.built_of_eval (n := 10) rfl, Parser.parse_returns (n := 20) rfl,
      fun rest => Parser.parse_returns (n := 20) rfl⟩
  have hcf := exprPs_conflictFree p _ g hg none hp
  constructor
  · refine ⟨[16], ?_⟩
    by_contra hn
    obtain ⟨f', s', hf'⟩ := (C49_decides _ _ _ _ g hg p hp hcf exprPs_noAdjacentRepeat 16
      exprPs_endMarked exprPs_reduced [⟨none, 15⟩, ⟨none, 16⟩]
      ⟨[⟨none, 15⟩], _, rfl, rfl, by simp⟩ ()).2 hn
    have := (Parser.Parses.det ht hf').1
    simp at this
  · rintro ⟨z, hz⟩
    obtain ⟨n, h1, h2⟩ := C21_ll1_complete_end_marked _ _ _ _ g hg p hp hcf exprPs_noAdjacentRepeat 16
      exprPs_endMarked (⟨none, 15⟩ :: ⟨none, 15⟩ :: z.map (fun a => ⟨none, a⟩)) [] (by
        simpa [Function.comp_def] using hz) ()
    have := (Parser.Parses.det h2 (by simpa using hf _)).1
    simp at this

/-- The hypotheses of C50 are met by `id id` in the expression grammar, those of C51 by `id $`
followed by `id`. -/
example : ∃ g p, Grammar.new (HashOrder.id Nat) 0 1 exprPs = .ok g ∧
    Built (σ := Unit) (L := Unit) (HashOrder.id Nat) g none p ∧ ConflictFree p.transitions ∧
    NoAdjacentRepeat exprPs ∧ EndMarked 0 1 16 exprPs ∧ Reduced 0 1 exprPs ∧
    IsNonTerminal exprPs 1 ∧ ¬ BeginsSentence 0 1 exprPs ([15] ++ [15]) ∧
    ¬ ViablePrefix 0 1 exprPs ([15] ++ [15]) ∧
    EndsWith 16 ([⟨none, 15⟩, ⟨none, 16⟩] : List (Token Unit Nat)) := by
  obtain ⟨g, p, hg, hp⟩ : ∃ g p, Grammar.new (HashOrder.id Nat) 0 1 exprPs = .ok g ∧
      Built (σ := Unit) (L := Unit) (HashOrder.id Nat) g none p :=
    ⟨_, _, rfl, Parser.built_of_eval (n := 10) rfl⟩
  have hnt : IsNonTerminal exprPs 1 := ⟨⟨1, [2, 16]⟩, by decide, rfl⟩
  refine ⟨g, p, hg, hp, exprPs_conflictFree p _ g hg none hp, exprPs_noAdjacentRepeat,
    exprPs_endMarked, exprPs_reduced, hnt, expr_id_id.2, ?_, ⟨[⟨none, 15⟩], _, rfl, rfl, by simp⟩⟩
  rw [viable_iff_begins _ _ _ _ g hg hnt (fun x hx => (exprPs_reduced x hx).2)]
  exact expr_id_id.2

end Verif.Props
