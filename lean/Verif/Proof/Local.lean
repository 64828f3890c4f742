import Verif.Proof.Recovery
import Verif.Proof.Derivation

/-! # What the search does not look at -/

set_option linter.unusedSectionVars false

namespace Verif.Parser.Recovery

open Spec Spec.Recovery

variable {σ L T : Type} [DecidableEq T] {eps init : T} {ps : List (Production T)}
  {tokens tokens' : List (Token L T)} {cand : T → T → List (List T)} {k : Nat}

/-- The types of the tokens from position `i` up to `j`. -/
def seg (tokens : List (Token L T)) (i j : Nat) : List T := ((tokens.take j).drop i).map (·.tType)

theorem seg_self (i : Nat) : seg tokens i i = [] := by
  unfold seg
  rw [List.drop_eq_nil_of_le (by simp; omega)]
  rfl

theorem seg_append {i j l : Nat} (h1 : i ≤ j) (h2 : j ≤ l) :
    seg tokens i l = seg tokens i j ++ seg tokens j l := by
  unfold seg
  rw [← List.map_append]
  congr 1
  rw [List.drop_take, List.drop_take, List.drop_take]
  have : l - i = (j - i) + (l - j) := by omega
  rw [this, List.take_add, List.drop_drop]
  congr 3
  omega

theorem seg_one {i : Nat} {t : Token L T} (h : tokens[i]? = some t) :
    seg tokens i (i + 1) = [t.tType] := by
  unfold seg
  rw [List.drop_take]
  obtain ⟨hi, rfl⟩ := List.getElem?_eq_some_iff.1 h
  rw [List.drop_eq_getElem_cons hi, Nat.add_sub_cancel_left]
  rfl

/-- The symbols without `eps`. -/
def strip (eps : T) (xs : List T) : List T := xs.filter (fun x => decide (x ≠ eps))

theorem strip_eps (xs : List T) : strip eps (eps :: xs) = strip eps xs := by
  simp [strip]

theorem strip_cons {x : T} (h : x ≠ eps) (xs : List T) : strip eps (x :: xs) = x :: strip eps xs := by
  simp [strip, h]

theorem rhs_strip (hw : WellFormed eps ps) {p : Production T} (hp : p ∈ ps) :
    rhs eps p = strip eps p.output := by
  obtain ⟨_, h1, h2⟩ := hw p hp
  unfold rhs strip
  split
  · rename_i h; simp [h]
  · rename_i h
    rw [List.filter_eq_self.2]
    intro a ha
    simp only [decide_eq_true_eq]
    rintro rfl
    have := h2 ha
    match hp' : p.output, this with
    | [b], _ => simp [hp'] at ha h; exact h ha.symm

/-- The symbols derive the terminals `w`. -/
def DerivesT (eps : T) (ps : List (Production T)) (xs w : List T) : Prop :=
  Derives eps ps xs w ∧ ∀ b ∈ w, ¬ IsNonTerminal ps b ∧ b ≠ eps

theorem DerivesT.append {a b a' b' : List T} (h : DerivesT eps ps a a') (h' : DerivesT eps ps b b') :
    DerivesT eps ps (a ++ b) (a' ++ b') := by
  refine ⟨Derives.append h.1 h'.1, ?_⟩
  intro c hc
  rcases List.mem_append.1 hc with hc | hc
  · exact h.2 c hc
  · exact h'.2 c hc

/-- The token at `k` and all from `pos` on before it can be derived from the start of the symbols. -/
def Reaches (eps : T) (ps : List (Production T)) (tokens : List (Token L T)) (k : Nat) (xs : List T)
    (pos : Nat) : Prop :=
  ∃ v, Derives eps ps xs (seg tokens pos (k + 1) ++ v) ∧
    ∀ b ∈ seg tokens pos (k + 1), ¬ IsNonTerminal ps b ∧ b ≠ eps

theorem Reaches.append {xs : List T} {pos : Nat} (ys : List T) (h : Reaches eps ps tokens k xs pos) :
    Reaches eps ps tokens k (xs ++ ys) pos := by
  obtain ⟨v, hv, ht⟩ := h
  exact ⟨v ++ ys, by simpa using hv.context [] ys, ht⟩

theorem Reaches.after {xs ys : List T} {pos q : Nat} (h1 : pos ≤ q) (h2 : q ≤ k)
    (hd : DerivesT eps ps xs (seg tokens pos q)) (h : Reaches eps ps tokens k ys q) :
    Reaches eps ps tokens k (xs ++ ys) pos := by
  obtain ⟨v, hv, ht⟩ := h
  refine ⟨v, ?_, ?_⟩
  · rw [seg_append h1 (by omega : q ≤ k + 1), List.append_assoc]
    exact Derives.append hd.1 hv
  · rw [seg_append h1 (by omega : q ≤ k + 1)]
    intro c hc
    rcases List.mem_append.1 hc with hc | hc
    · exact hd.2 c hc
    · exact ht c hc

/-- What is known of an outcome for a non-terminal that did not reach the token at `k`. -/
def NearD (eps : T) (ps : List (Production T)) (tokens : List (Token L T)) (k : Nat) (x : T)
    (pos : Nat) (outs : List (List T)) {β : Type} : Outcome σ (Derived L T) β → Prop
  | .found (.node _ q rest) _ => pos ≤ q ∧ q ≤ k ∧ DerivesT eps ps [x] (seg tokens pos q) ∧
      ∀ o ∈ rest, o ∈ outs
  | .found (.fixed _ _) _ => False
  | _ => True

/-- What is known of an outcome for a sequence of symbols that did not reach the token at `k`. -/
def NearS (eps : T) (ps : List (Production T)) (tokens : List (Token L T)) (k : Nat) (xs : List T)
    (pos : Nat) : SeqOutcome σ L T → Prop
  | .found (l, q) _ => pos ≤ q ∧ q ≤ k ∧ DerivesT eps ps (strip eps xs) (seg tokens pos q) ∧
      ∀ fs, ProductionParsedSymbol.fix fs ∉ l
  | _ => True

mutual
theorem choice_near (hw : WellFormed eps ps)
    (hcand : ∀ x a out, out ∈ cand x a → (⟨x, out⟩ : Production T) ∈ ps)
    (hag : ∀ i ≤ k, tokens[i]? = tokens'[i]?) {x : T} {pos : Nat} {outs : List (List T)} {sg : Bool}
    {s : σ} {r : Outcome σ (Derived L T) (FailedSymbol L T)} :
    Choice eps ps cand none tokens x pos outs sg s r → pos ≤ k →
    (∀ o ∈ outs, (⟨x, o⟩ : Production T) ∈ ps) →
    Reaches eps ps tokens k [x] pos ∨
      (Choice eps ps cand none tokens' x pos outs sg s r ∧ NearD eps ps tokens k x pos outs r)
  | .derived x pos outs sg s s' d h, hpos, ho => by
    rcases alts_near hw hcand hag h hpos ho with h1 | ⟨h1, h2⟩
    · exact .inl h1
    · refine .inr ⟨.derived _ _ _ _ _ _ _ h1, ?_⟩
      cases d <;> exact h2
  | .panicked x pos outs sg s h, hpos, ho => by
    rcases alts_near hw hcand hag h hpos ho with h1 | ⟨h1, h2⟩
    · exact .inl h1
    · exact .inr ⟨.panicked _ _ _ _ _ h1, trivial⟩
  | .fixed x pos outs sg s s1 s2 fps r h ha, hpos, ho => by simp [answer] at ha
  | .failed x pos outs sg s s1 s2 fps h ha, hpos, ho => by
    rcases alts_near hw hcand hag h hpos ho with h1 | ⟨h1, h2⟩
    · exact .inl h1
    · exact .inr ⟨.failed _ _ _ _ _ _ _ _ h1 (by simpa [answer] using ha), trivial⟩
  | .solverPanics x pos outs sg s s1 fps e h ha, hpos, ho => by simp [answer] at ha
theorem alts_near (hw : WellFormed eps ps)
    (hcand : ∀ x a out, out ∈ cand x a → (⟨x, out⟩ : Production T) ∈ ps)
    (hag : ∀ i ≤ k, tokens[i]? = tokens'[i]?) {x : T} {pos : Nat} {outs : List (List T)} {sg : Bool}
    {s : σ} {r : Outcome σ (Derived L T) (List (FailedProduction L T))} :
    Alts eps ps cand none tokens x pos sg outs s r → pos ≤ k →
    (∀ o ∈ outs, (⟨x, o⟩ : Production T) ∈ ps) →
    Reaches eps ps tokens k [x] pos ∨
      (Alts eps ps cand none tokens' x pos sg outs s r ∧ NearD eps ps tokens k x pos outs r)
  | .none x pos sg s, hpos, ho => .inr ⟨.none _ _ _ _, trivial⟩
  | .node x pos sg out outs s s' ns q h, hpos, ho => by
    have hx := ho out (by simp)
    have hd := Derives.of_production (eps := eps) hx
    rw [rhs_strip hw hx] at hd
    rcases seq_near hw hcand hag h hpos with ⟨v, h1, h0⟩ | ⟨h1, h2, h3, h4, _⟩
    · exact .inl ⟨v, hd.trans h1, h0⟩
    · exact .inr ⟨.node _ _ _ _ _ _ _ _ _ h1, h2, h3, ⟨hd.trans h4.1, h4.2⟩, by simp +contextual⟩
  | .fixed x pos sg out outs s s' l q h hf, hpos, ho => by
    have hx := ho out (by simp)
    have hd := Derives.of_production (eps := eps) hx
    rw [rhs_strip hw hx] at hd
    rcases seq_near hw hcand hag h hpos with ⟨v, h1, h0⟩ | ⟨h1, h2, h3, h4, h5⟩
    · exact .inl ⟨v, hd.trans h1, h0⟩
    · obtain ⟨fs, hfs⟩ := hf
      exact absurd hfs (h5 fs)
  | .next x pos sg out outs s s' f l r h h', hpos, ho => by
    have ih := seq_near hw hcand hag h hpos
    have ih' := alts_near hw hcand hag h' hpos (fun o h => ho o (by simp [h]))
    have hx := ho out (by simp)
    have hd := Derives.of_production (eps := eps) hx
    rw [rhs_strip hw hx] at hd
    rcases ih with ⟨v, h1, h0⟩ | ⟨h1, _⟩
    · exact .inl ⟨v, hd.trans h1, h0⟩
    · rcases ih' with h2 | ⟨h2, h3⟩
      · exact .inl h2
      · refine .inr ⟨.next _ _ _ _ _ _ _ _ _ _ h1 h2, ?_⟩
        rcases r with ⟨d | d, s⟩ | _ | _
        · obtain ⟨h4, h5, h6, h7⟩ := h3
          exact ⟨h4, h5, h6, fun o ho => by simp [h7 o ho]⟩
        · exact h3
        · trivial
        · trivial
  | .panicked x pos sg out outs s h, hpos, ho => by
    have hx := ho out (by simp)
    have hd := Derives.of_production (eps := eps) hx
    rw [rhs_strip hw hx] at hd
    rcases seq_near hw hcand hag h hpos with ⟨v, h1, h0⟩ | ⟨h1, _⟩
    · exact .inl ⟨v, hd.trans h1, h0⟩
    · exact .inr ⟨.panicked _ _ _ _ _ _ h1, trivial⟩
theorem seq_near (hw : WellFormed eps ps)
    (hcand : ∀ x a out, out ∈ cand x a → (⟨x, out⟩ : Production T) ∈ ps)
    (hag : ∀ i ≤ k, tokens[i]? = tokens'[i]?) {xs : List T} {pos : Nat} {sg : Bool}
    {s : σ} {r : SeqOutcome σ L T} :
    Seq eps ps cand none tokens sg xs pos s r → pos ≤ k →
    Reaches eps ps tokens k (strip eps xs) pos ∨
      (Seq eps ps cand none tokens' sg xs pos s r ∧ NearS eps ps tokens k xs pos r)
  | .nil sg pos s, hpos => by
    refine .inr ⟨.nil _ _ _, Nat.le_refl _, hpos, ?_, by simp⟩
    rw [seg_self]
    exact ⟨.refl _, by simp⟩
  | .eps sg xs pos s r h, hpos => by
    have ih := seq_near hw hcand hag h hpos
    rw [strip_eps]
    rcases ih with h1 | ⟨h1, h2⟩
    · exact .inl h1
    · refine .inr ⟨.eps _ _ _ _ _ h1, ?_⟩
      rcases r with ⟨⟨l, q⟩, s⟩ | ⟨⟨f, l⟩, s⟩ | _
      · obtain ⟨h3, h4, h5, h6⟩ := h2
        exact ⟨h3, h4, by rwa [strip_eps], by simpa using h6⟩
      · trivial
      · trivial
  | .terminal sg xs pos s t r hnt hne ht h, hpos => by
    have ih := fun hk => seq_near hw hcand hag h (pos := pos + 1) hk
    have hst : strip eps (t.tType :: xs) = t.tType :: strip eps xs := strip_cons hne xs
    rcases Nat.lt_or_ge pos k with hk | hk
    · rcases ih hk with h1 | ⟨h1, h2⟩
      · refine .inl ?_
        rw [hst]
        refine Reaches.after (xs := [t.tType]) (q := pos + 1) (by omega) hk ?_ h1
        rw [seg_one ht]
        exact ⟨.refl _, by simpa using ⟨hnt, hne⟩⟩
      · refine .inr ⟨.terminal _ _ _ _ _ _ hnt hne (by rw [← hag pos hpos]; exact ht) h1, ?_⟩
        rcases r with ⟨⟨l, q⟩, s⟩ | ⟨⟨f, l⟩, s⟩ | _
        · obtain ⟨h3, h4, h5, h6⟩ := h2
          refine ⟨by omega, h4, ?_, by simpa using h6⟩
          rw [hst, seg_append (by omega : pos ≤ pos + 1) h3, seg_one ht]
          exact DerivesT.append (a := [t.tType]) ⟨.refl _, by simpa using ⟨hnt, hne⟩⟩ h5
        · trivial
        · trivial
    · have : pos = k := by omega
      subst this
      refine .inl ⟨strip eps xs, ?_⟩
      rw [hst, seg_one ht]
      exact ⟨.refl _, by simpa using ⟨hnt, hne⟩⟩
  | .mismatch sg x xs pos s hnt hne hm, hpos =>
    .inr ⟨.mismatch _ _ _ _ _ hnt hne (by rw [← hag pos hpos]; exact hm), trivial⟩
  | .runsOut sg x xs pos s hnt ht, hpos =>
    .inr ⟨.runsOut _ _ _ _ _ hnt (by rw [← hag pos hpos]; exact ht), trivial⟩
  | .nonTerminal sg x xs pos s s1 t n q rest r r' hnt ht hc hs hr, hpos => by
    have ihc := choice_near hw hcand hag hc hpos (fun o h => hcand _ _ _ h)
    have ihs := fun hk => seq_near hw hcand hag hs (pos := q) hk
    have ihr := fun h1 h2 => resume_near hw hcand hag hr hpos h1 h2
    have hne : x ≠ eps := by
      rintro rfl
      obtain ⟨p, hp, e⟩ := hnt
      exact (hw p hp).1 e
    have hst : strip eps (x :: xs) = x :: strip eps xs := strip_cons hne xs
    rcases ihc with h1 | ⟨h1, h2, h3, h4, h5⟩
    · refine .inl ?_
      rw [hst]
      exact h1.append _
    · rcases ihs h3 with h6 | ⟨h6, h7⟩
      · refine .inl ?_
        rw [hst]
        exact Reaches.after h2 h3 h4 h6
      · rcases ihr (fun o ho => hcand _ _ _ (h5 o ho)) (by
          intro l q' s' e
          subst e
          obtain ⟨h8, h9, h10, h11⟩ := h7
          refine ⟨by omega, h9, ?_, h11⟩
          rw [hst, seg_append h2 h8]
          exact DerivesT.append (a := [x]) h4 h10) with h8 | ⟨h8, h9⟩
        · exact .inl h8
        · exact .inr ⟨.nonTerminal _ _ _ _ _ _ t _ _ _ _ _ hnt (by rw [← hag pos hpos]; exact ht) h1 h6 h8, h9⟩
  | .fixed sg x xs pos s s1 t fs q r hnt ht hc hs, hpos => by
    have ihc := choice_near hw hcand hag hc hpos (fun o h => hcand _ _ _ h)
    have hne : x ≠ eps := by
      rintro rfl
      obtain ⟨p, hp, e⟩ := hnt
      exact (hw p hp).1 e
    rcases ihc with h1 | ⟨h1, h2⟩
    · refine .inl ?_
      rw [strip_cons hne]
      exact h1.append _
    · exact h2.elim
  | .failed sg x xs pos s s1 t f hnt ht hc, hpos => by
    have ihc := choice_near hw hcand hag hc hpos (fun o h => hcand _ _ _ h)
    have hne : x ≠ eps := by
      rintro rfl
      obtain ⟨p, hp, e⟩ := hnt
      exact (hw p hp).1 e
    rcases ihc with h1 | ⟨h1, h2⟩
    · refine .inl ?_
      rw [strip_cons hne]
      exact h1.append _
    · exact .inr ⟨.failed _ _ _ _ _ _ t _ hnt (by rw [← hag pos hpos]; exact ht) h1, trivial⟩
  | .panicked sg x xs pos s t hnt ht hc, hpos => by
    have ihc := choice_near hw hcand hag hc hpos (fun o h => hcand _ _ _ h)
    have hne : x ≠ eps := by
      rintro rfl
      obtain ⟨p, hp, e⟩ := hnt
      exact (hw p hp).1 e
    rcases ihc with h1 | ⟨h1, h2⟩
    · refine .inl ?_
      rw [strip_cons hne]
      exact h1.append _
    · exact .inr ⟨.panicked _ _ _ _ _ t hnt (by rw [← hag pos hpos]; exact ht) h1, trivial⟩
theorem resume_near (hw : WellFormed eps ps)
    (hcand : ∀ x a out, out ∈ cand x a → (⟨x, out⟩ : Production T) ∈ ps)
    (hag : ∀ i ≤ k, tokens[i]? = tokens'[i]?) {x : T} {xs : List T} {pos : Nat} {sg : Bool}
    {n : Node L T} {rest : List (List T)} {r r' : SeqOutcome σ L T} :
    Resume eps ps cand none tokens sg x xs pos n rest r r' → pos ≤ k →
    (∀ o ∈ rest, (⟨x, o⟩ : Production T) ∈ ps) →
    (∀ l q s, r = .found (l, q) s → NearS eps ps tokens k (x :: xs) pos r) →
    Reaches eps ps tokens k (strip eps (x :: xs)) pos ∨
      (Resume eps ps cand none tokens' sg x xs pos n rest r r' ∧
        NearS eps ps tokens k (x :: xs) pos r')
  | .found sg x xs pos n rest l q s, hpos, ho, hr => by
    refine .inr ⟨.found _ _ _ _ _ _ _ _ _, ?_⟩
    obtain ⟨h1, h2, h3, h4⟩ := hr l q s rfl
    exact ⟨h1, h2, h3, by simpa using h4⟩
  | .panicked sg x xs pos n rest, hpos, ho, hr => .inr ⟨.panicked _ _ _ _ _ _, trivial⟩
  | .again sg x xs pos n n' rest rest' f s s1 q r r' hc hs hre, hpos, ho, hr => by
    have ihc := choice_near hw hcand hag hc hpos ho
    have ihs := fun hk => seq_near hw hcand hag hs (pos := q) hk
    have ihr := fun h1 h2 => resume_near hw hcand hag hre hpos h1 h2
    by_cases hne : x = eps
    · subst hne
      cases rest with
      | nil =>
        exfalso
        cases hc with
        | derived _ _ _ _ _ _ _ h => cases h
      | cons o rest => exact absurd rfl (hw _ (ho o (by simp))).1
    have hst : strip eps (x :: xs) = x :: strip eps xs := strip_cons hne xs
    rcases ihc with h1 | ⟨h1, h2, h3, h4, h5⟩
    · refine .inl ?_
      rw [hst]
      exact h1.append _
    · rcases ihs h3 with h6 | ⟨h6, h7⟩
      · refine .inl ?_
        rw [hst]
        exact Reaches.after h2 h3 h4 h6
      · rcases ihr (fun o ho' => ho o (h5 o ho')) (by
          intro l q' s' e
          subst e
          obtain ⟨h8, h9, h10, h11⟩ := h7
          refine ⟨by omega, h9, ?_, h11⟩
          rw [hst, seg_append h2 h8]
          exact DerivesT.append (a := [x]) h4 h10) with h8 | ⟨h8, h9⟩
        · exact .inl h8
        · exact .inr ⟨.again _ _ _ _ _ _ _ _ _ _ _ _ _ _ h1 h6 h8, h9⟩
  | .gaveUp sg x xs pos n rest f s s1 f' hc, hpos, ho, hr => by
    have ihc := choice_near hw hcand hag hc hpos ho
    by_cases hne : x = eps
    · subst hne
      cases rest with
      | nil =>
        refine .inr ⟨.gaveUp _ _ _ _ _ _ _ _ _ f' ?_, trivial⟩
        cases hc with
        | failed _ _ _ _ _ _ _ _ h ha =>
          cases h
          exact .failed _ _ _ _ _ _ _ _ (.none _ _ _ _) (by simpa [answer] using ha)
      | cons o rest => exact absurd rfl (hw _ (ho o (by simp))).1
    rcases ihc with h1 | ⟨h1, h2⟩
    · refine .inl ?_
      rw [strip_cons hne]
      exact h1.append _
    · exact .inr ⟨.gaveUp _ _ _ _ _ _ _ _ _ _ h1, trivial⟩
  | .fixDropped sg x xs pos n rest f s s1 fs q hc, hpos, ho, hr => by
    have ihc := choice_near hw hcand hag hc hpos ho
    by_cases hne : x = eps
    · subst hne
      cases rest with
      | nil =>
        exfalso
        cases hc with
        | derived _ _ _ _ _ _ _ h => cases h
        | fixed _ _ _ _ _ _ _ _ _ _ ha => simp [answer] at ha
      | cons o rest => exact absurd rfl (hw _ (ho o (by simp))).1
    rcases ihc with h1 | ⟨h1, h2⟩
    · refine .inl ?_
      rw [strip_cons hne]
      exact h1.append _
    · exact h2.elim
  | .retryPanics sg x xs pos n rest f s hc, hpos, ho, hr => by
    have ihc := choice_near hw hcand hag hc hpos ho
    by_cases hne : x = eps
    · subst hne
      cases rest with
      | nil =>
        exfalso
        cases hc with
        | panicked _ _ _ _ _ h => cases h
        | solverPanics _ _ _ _ _ _ _ _ _ ha => simp [answer] at ha
      | cons o rest => exact absurd rfl (hw _ (ho o (by simp))).1
    rcases ihc with h1 | ⟨h1, h2⟩
    · refine .inl ?_
      rw [strip_cons hne]
      exact h1.append _
    · exact .inr ⟨.retryPanics _ _ _ _ _ _ _ _ h1, trivial⟩
end

end Verif.Parser.Recovery
