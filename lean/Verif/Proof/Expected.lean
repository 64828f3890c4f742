import Verif.Spec.Expected
import Verif.Proof.RecoveryOff
import Verif.Proof.Derivation

/-! # The innermost symbols of a failure report are what was expected -/

set_option linter.unusedSectionVars false

namespace Verif.Parser.Recovery

open Spec Spec.Recovery

variable {σ L T : Type} [DecidableEq T] {eps : T} {ps : List (Production T)}
  {cand : T → T → List (List T)} {tokens : List (Token L T)}

/-- The types of the tokens from `i` on in front of `j`. -/
def types (tokens : List (Token L T)) (i j : Nat) : List T := (word tokens i j).map (·.tType)

/-- The symbols `xs` derive the terminals `w` followed by `v`. -/
def ReachesTo (eps : T) (ps : List (Production T)) (xs w v : List T) : Prop :=
  Derives eps ps xs (w ++ v) ∧ ∀ a ∈ w, ¬ IsNonTerminal ps a ∧ a ≠ eps

theorem ReachesTo.refl (v : List T) : ReachesTo eps ps v [] v := ⟨.refl _, by simp⟩

theorem ReachesTo.head {a b w v : List T} (h : Derives eps ps a b) (h' : ReachesTo eps ps b w v) :
    ReachesTo eps ps a w v := ⟨h.trans h'.1, h'.2⟩

theorem ReachesTo.append {a b w w' v : List T} (h : ReachesTo eps ps a w []) (h' : ReachesTo eps ps b w' v) :
    ReachesTo eps ps (a ++ b) (w ++ w') v := by
  refine ⟨?_, fun c hc => ?_⟩
  · have := Derives.append h.1 h'.1
    simpa using this
  · rcases List.mem_append.1 hc with hc | hc
    · exact h.2 c hc
    · exact h'.2 c hc

theorem ReachesTo.tail {a w v : List T} (h : ReachesTo eps ps a w v) (b : List T) :
    ReachesTo eps ps (a ++ b) w (v ++ b) := by
  refine ⟨?_, h.2⟩
  have := Derives.append h.1 (.refl b)
  simpa using this

theorem ReachesTo.one {a : T} (h : ¬ IsNonTerminal ps a) (h' : a ≠ eps) : ReachesTo eps ps [a] [a] [] :=
  ⟨.refl _, by simpa using ⟨h, h'⟩⟩

/-- `y` is expected at some position by the symbols `xs` at `pos`. -/
def ExpectedIn (eps : T) (ps : List (Production T)) (cand : T → T → List (List T))
    (tokens : List (Token L T)) (xs : List T) (pos : Nat) (y : T) : Prop :=
  ∃ k v, pos ≤ k ∧ k ≤ tokens.length ∧ ReachesTo eps ps xs (types tokens pos k) (y :: v) ∧
    Stuck ps cand tokens y k

/-- The symbols without `eps`. -/
def stripEnd (eps : T) (xs : List T) : List T := xs.filter (fun y => y ≠ eps)

theorem strip_cons_eps (xs : List T) : stripEnd eps (eps :: xs) = stripEnd eps xs := by simp [stripEnd]

theorem stripEnd_cons {x : T} (hx : x ≠ eps) (xs : List T) : stripEnd eps (x :: xs) = x :: stripEnd eps xs := by
  simp [stripEnd, hx]

theorem rhs_eq_strip (hw : WellFormed eps ps) {p : Production T} (hp : p ∈ ps) :
    rhs eps p = stripEnd eps p.output := by
  unfold rhs
  split
  · rename_i e; rw [e]; simp [stripEnd]
  · rename_i e
    symm
    apply List.filter_eq_self.2
    intro y hy
    simp only [decide_eq_true_eq]
    rintro rfl
    have := (hw p hp).2.2 hy
    obtain ⟨z, hz⟩ := List.length_eq_one_iff.1 this
    rw [hz] at hy e
    simp only [List.mem_singleton] at hy
    subst hy
    exact e rfl

/-- What a search for the symbols `xs` at `pos` gives. -/
def SeqPost (eps : T) (ps : List (Production T)) (cand : T → T → List (List T))
    (tokens : List (Token L T)) (xs : List T) (pos : Nat) : SeqOutcome σ L T → Prop
  | .found (_, q) _ => pos ≤ q ∧ q ≤ tokens.length ∧ ReachesTo eps ps (stripEnd eps xs) (types tokens pos q) []
  | .failed (f, _) _ => ∀ y, Innermost f y → ExpectedIn eps ps cand tokens (stripEnd eps xs) pos y
  | .panicked => True

theorem SeqPost.cons {a : Part L T} {r : SeqOutcome σ L T} {xs ys : List T} {pos pos' : Nat}
    (hle : pos ≤ pos')
    (hd : ∀ w v, ReachesTo eps ps (stripEnd eps xs) w v →
      ReachesTo eps ps (stripEnd eps ys) (types tokens pos pos' ++ w) v)
    (h : SeqPost eps ps cand tokens xs pos' r) : SeqPost eps ps cand tokens ys pos (r.cons a) := by
  have key : ∀ k, pos' ≤ k → types tokens pos k = types tokens pos pos' ++ types tokens pos' k := by
    intro k hk
    unfold types
    rw [← List.map_append, word_append tokens hle hk]
  match r, h with
  | .found (_, q) _, h =>
    obtain ⟨h1, h2, h3⟩ := h
    exact ⟨by omega, h2, by rw [key q h1]; exact hd _ _ h3⟩
  | .failed (f, _) _, h =>
    intro y hy
    obtain ⟨k, v, h1, h2, h3, h4⟩ := h y hy
    refine ⟨k, v, by omega, h2, ?_, h4⟩
    rw [key k h1]
    exact hd _ _ h3
  | .panicked, _ => trivial

theorem SeqPost.cons' {r : SeqOutcome σ L T} {xs ys : List T} {pos pos' : Nat}
    (hle : pos ≤ pos')
    (hd : ∀ w v, ReachesTo eps ps (stripEnd eps xs) w v →
      ReachesTo eps ps (stripEnd eps ys) (types tokens pos pos' ++ w) v)
    (h : SeqPost eps ps cand tokens xs pos' r) : SeqPost eps ps cand tokens ys pos r := by
  have key : ∀ k, pos' ≤ k → types tokens pos k = types tokens pos pos' ++ types tokens pos' k := by
    intro k hk
    unfold types
    rw [← List.map_append, word_append tokens hle hk]
  match r, h with
  | .found (_, q) _, h =>
    obtain ⟨h1, h2, h3⟩ := h
    exact ⟨by omega, h2, by rw [key q h1]; exact hd _ _ h3⟩
  | .failed (f, _) _, h =>
    intro y hy
    obtain ⟨k, v, h1, h2, h3, h4⟩ := h y hy
    refine ⟨k, v, by omega, h2, ?_, h4⟩
    rw [key k h1]
    exact hd _ _ h3
  | .panicked, _ => trivial

/-- What deriving `x` at `pos` gives. -/
def ChoicePost (eps : T) (ps : List (Production T)) (cand : T → T → List (List T))
    (tokens : List (Token L T)) (x : T) (pos : Nat) (outs : List (List T)) :
    Outcome σ (Derived L T) (FailedSymbol L T) → Prop
  | .found (.node _ q rest) _ => pos ≤ q ∧ q ≤ tokens.length ∧ ReachesTo eps ps [x] (types tokens pos q) [] ∧
      ∀ o ∈ rest, o ∈ outs
  | .found (.fixed _ _) _ => False
  | .failed f _ => (outs = [] → Stuck ps cand tokens x pos) →
      ∀ y, Innermost f y → ExpectedIn eps ps cand tokens [x] pos y
  | .panicked => True

/-- What trying candidates of `x` at `pos` gives. -/
def AltsPost (eps : T) (ps : List (Production T)) (cand : T → T → List (List T))
    (tokens : List (Token L T)) (x : T) (pos : Nat) (outs : List (List T)) :
    Outcome σ (Derived L T) (List (FailedProduction L T)) → Prop
  | .found (.node _ q rest) _ => pos ≤ q ∧ q ≤ tokens.length ∧ ReachesTo eps ps [x] (types tokens pos q) [] ∧
      ∀ o ∈ rest, o ∈ outs
  | .found (.fixed _ _) _ => False
  | .failed fps _ => ∀ fp ∈ fps, ∀ y, Innermost fp.failedSymbol y →
      ExpectedIn eps ps cand tokens [x] pos y
  | .panicked => True

theorem seq_no_fix {single : Bool} {xs : List T} {pos : Nat} {s : σ} {r : SeqOutcome σ L T}
    (h : Seq eps ps cand none tokens single xs pos s r) :
    ∀ l q s', r = .found (l, q) s' → ∀ fs, ProductionParsedSymbol.fix fs ∉ l := by
  refine Spec.Recovery.Seq.rec (eps := eps) (ps := ps) (cand := cand) (solver := none) (tokens := tokens)
    (motive_1 := fun x pos outs sg s r _ => ∀ fs q s', r ≠ .found (.fixed fs q) s')
    (motive_2 := fun x pos sg outs s r _ => ∀ fs q s', r ≠ .found (.fixed fs q) s')
    (motive_3 := fun sg ys q s r _ => ∀ l q s', r = .found (l, q) s' →
      ∀ fs, ProductionParsedSymbol.fix fs ∉ l)
    (motive_4 := fun sg y ys pos nd rest r0 r1 _ =>
      (∀ l q s', r0 = .found (l, q) s' → ∀ fs, ProductionParsedSymbol.fix fs ∉ l) →
      ∀ l q s', r1 = .found (l, q) s' → ∀ fs, ProductionParsedSymbol.fix fs ∉ l)
    ?_ ?_ ?_ ?_ ?_ ?_ ?_ ?_ ?_ ?_ ?_ ?_ ?_ ?_ ?_ ?_ ?_ ?_ ?_ ?_ ?_ ?_ ?_ ?_ ?_ h
  · intro x pos outs sg s s' d _ ih fs q s'' e
    cases e
    exact ih _ _ _ rfl
  · intro x pos outs sg s _ _ fs q s' e; cases e
  · intro x pos outs sg s s1 s2 fps fr _ ha _ fs q s' e
    simp [answer] at ha
  · intro x pos outs sg s s1 s2 fps _ _ _ fs q s' e; cases e
  · intro x pos outs sg s s1 fps e _ _ _ fs q s' e; cases e
  · intro x pos sg s fs q s' e; cases e
  · intro x pos sg out outs s s' ns q _ _ fs q' s'' e; cases e
  · intro x pos sg out outs s s' l q _ hfx ih fs q' s'' e
    obtain ⟨fs', hfs⟩ := hfx
    exact absurd hfs (ih _ _ _ rfl fs')
  · intro x pos sg out outs s s' f l r _ _ _ ih2 fs q s'' e
    match r, ih2, e with
    | .found d s3, ih2, e =>
      cases e
      exact ih2 _ _ _ rfl
  · intro x pos sg out outs s _ _ fs q s' e; cases e
  · intro sg pos s l q s' e fs
    cases e
    simp
  · intro sg ys pos s r0 _ ih l q s' e fs
    match r0, ih, e with
    | .found (l', q') s3, ih, e =>
      cases e
      simpa using ih _ _ _ rfl fs
  · intro sg ys pos s t r0 _ _ _ _ ih l q s' e fs
    match r0, ih, e with
    | .found (l', q') s3, ih, e =>
      cases e
      simpa using ih _ _ _ rfl fs
  · intro sg y ys pos s _ _ _ l q s' e; cases e
  · intro sg y ys pos s _ _ l q s' e; cases e
  · intro sg y ys pos s s1 t nd q rest r0 r1 _ _ _ _ _ _ ih2 ih3
    exact ih3 ih2
  · intro sg y ys pos s s1 t fs q r0 _ _ _ _ ih1 _ l q' s' e
    exact absurd rfl (ih1 fs q s1)
  · intro sg y ys pos s s1 t f _ _ _ _ l q s' e; cases e
  · intro sg y ys pos s t _ _ _ _ l q s' e; cases e
  · intro sg y ys pos nd rest l q s ih l' q' s' e fs
    cases e
    simpa using ih _ _ _ rfl fs
  · intro sg y ys pos nd rest _ l q s' e; cases e
  · intro sg y ys pos nd nd' rest rest' f s s1 q r0 r1 _ _ _ _ ih2 ih3 _
    exact ih3 ih2
  · intro sg y ys pos nd rest f s s1 f' _ _ _ l q s' e; cases e
  · intro sg y ys pos nd rest f s s1 fs q _ _ _ l q' s' e; cases e
  · intro sg y ys pos nd rest f s _ _ _ l q s' e; cases e

theorem choice_expected (hw : WellFormed eps ps)
    (hcand : ∀ x a out, out ∈ cand x a → (⟨x, out⟩ : Production T) ∈ ps) {x : T} {pos : Nat}
    {outs : List (List T)} {sg : Bool} {s : σ} {r : Outcome σ (Derived L T) (FailedSymbol L T)}
    (h : Choice eps ps cand none tokens x pos outs sg s r)
    (houts : ∀ o ∈ outs, (⟨x, o⟩ : Production T) ∈ ps) (hpos : pos ≤ tokens.length) :
    ChoicePost eps ps cand tokens x pos outs r := by
  have hntne : ∀ y, IsNonTerminal ps y → y ≠ eps := by
    rintro y ⟨q, hq, rfl⟩
    exact (hw q hq).1
  refine (Choice.rec (eps := eps) (ps := ps) (cand := cand) (solver := none) (tokens := tokens)
    (motive_1 := fun x pos outs sg s r _ => (∀ o ∈ outs, (⟨x, o⟩ : Production T) ∈ ps) →
      pos ≤ tokens.length → ChoicePost eps ps cand tokens x pos outs r)
    (motive_2 := fun x pos sg outs s r _ => (∀ o ∈ outs, (⟨x, o⟩ : Production T) ∈ ps) →
      pos ≤ tokens.length → AltsPost eps ps cand tokens x pos outs r)
    (motive_3 := fun sg ys pos s r _ => pos ≤ tokens.length → SeqPost eps ps cand tokens ys pos r)
    (motive_4 := fun sg y ys pos nd rest r0 r1 _ => IsNonTerminal ps y →
      (∀ o ∈ rest, (⟨y, o⟩ : Production T) ∈ ps) → pos ≤ tokens.length →
      SeqPost eps ps cand tokens (y :: ys) pos r0 → SeqPost eps ps cand tokens (y :: ys) pos r1)
    ?_ ?_ ?_ ?_ ?_ ?_ ?_ ?_ ?_ ?_ ?_ ?_ ?_ ?_ ?_ ?_ ?_ ?_ ?_ ?_ ?_ ?_ ?_ ?_ ?_ h) houts hpos
  -- Choice
  · intro x pos outs sg s s' d _ ih ho hp
    have := ih ho hp
    cases d with
    | node n q rest => exact this
    | fixed fs q => exact this
  · intro x pos outs sg s _ _ _ _; trivial
  · intro x pos outs sg s s1 s2 fps fr _ ha _ _ _
    simp [answer] at ha
  · intro x pos outs sg s s1 s2 fps halts _ ih ho hp hstuck y hy
    have h1 := ih ho hp
    cases hy with
    | here =>
      have := alts_length halts _ _ rfl
      have he : outs = [] := List.length_eq_zero_iff.1 (by simpa using this.symm)
      exact ⟨pos, [], Nat.le_refl _, hp, by simpa [types, word_self] using ReachesTo.refl _, hstuck he⟩
    | deep _ _ fp _ hfp hy => exact h1 fp hfp y hy
  · intro x pos outs sg s s1 fps e _ _ _ _ _; trivial
  -- Alts
  · intro x pos sg s _ _ fp hfp
    simp at hfp
  · intro x pos sg out outs s s' ns q _ ih ho hp
    obtain ⟨h1, h2, h3⟩ := ih hp
    refine ⟨h1, h2, ?_, fun o ho => by simp [ho]⟩
    have hq := ho out (by simp)
    have := Derives.of_production (eps := eps) hq
    rw [rhs_eq_strip hw hq] at this
    exact .head this h3
  · intro x pos sg out outs s s' l q hs hfx _ _ _
    obtain ⟨fs, hfs⟩ := hfx
    exact seq_no_fix hs _ _ _ rfl fs hfs
  · intro x pos sg out outs s s' f l r _ _ ih1 ih2 ho hp
    have h1 := ih1 hp
    have h2 := ih2 (fun o h => ho o (by simp [h])) hp
    match r, h2 with
    | .found (.node n q rest) s3, h2 =>
      obtain ⟨a, b, c, d⟩ := h2
      exact ⟨a, b, c, fun o h => by simp [d o h]⟩
    | .found (.fixed _ _) s3, h2 => exact h2
    | .panicked, _ => trivial
    | .failed fps s3, h2 =>
      intro fp hfp
      rcases List.mem_cons.1 hfp with rfl | hfp
      · intro y hy
        obtain ⟨k, v, a, b, c, d⟩ := h1 y hy
        refine ⟨k, v, a, b, ?_, d⟩
        have hq := ho out (by simp)
        have := Derives.of_production (eps := eps) hq
        rw [rhs_eq_strip hw hq] at this
        exact .head this c
      · exact h2 fp hfp
  · intro x pos sg out outs s _ _ _ _; trivial
  -- Seq
  · intro sg pos s hp
    exact ⟨Nat.le_refl _, hp, by simpa [types, word_self, stripEnd] using ReachesTo.refl _⟩
  · intro sg ys pos s r0 _ ih hp
    refine SeqPost.cons (Nat.le_refl _) ?_ (ih hp)
    intro w v hd
    rw [strip_cons_eps]
    simpa [types, word_self] using hd
  · intro sg ys pos s t r0 hy he ht _ ih hp
    have hlt := (List.getElem?_eq_some_iff.1 ht).1
    refine SeqPost.cons (Nat.le_succ _) ?_ (ih hlt)
    intro w v hd
    rw [stripEnd_cons he, types, word_one ht]
    exact ReachesTo.append (.one hy he) hd
  · intro sg y ys pos s hy he hne hp z hz
    cases hz with
    | here =>
      refine ⟨pos, stripEnd eps ys, Nat.le_refl _, hp, ?_, .inl ⟨hy, hne⟩⟩
      rw [stripEnd_cons he]
      simpa [types, word_self] using ReachesTo.refl _
    | deep _ _ fp _ hfp _ => simp at hfp
  · intro sg y ys pos s _ _ _; trivial
  · intro sg y ys pos s s1 t nd q rest r0 r1 hy ht _ _ _ ih1 ih2 ih3 hp
    obtain ⟨h1, h2, h3, h4⟩ := ih1 (fun o ho => hcand _ _ _ ho) hp
    refine ih3 hy (fun o ho => hcand _ _ _ (h4 o ho)) hp (SeqPost.cons' h1 ?_ (ih2 h2))
    intro w v hd
    rw [stripEnd_cons (hntne y hy)]
    exact ReachesTo.append h3 hd
  · intro sg y ys pos s s1 t fs q r0 hy ht _ _ ih1 _ hp
    exact (ih1 (fun o ho => hcand _ _ _ ho) hp).elim
  · intro sg y ys pos s s1 t f hy ht _ ih1 hp z hz
    obtain ⟨k, v, a, b, c, d⟩ := ih1 (fun o ho => hcand _ _ _ ho) hp
      (fun he => .inr ⟨hy, t, ht, he⟩) z hz
    refine ⟨k, v ++ stripEnd eps ys, a, b, ?_, d⟩
    rw [stripEnd_cons (hntne y hy)]
    exact c.tail (stripEnd eps ys)
  · intro sg y ys pos s t hy ht _ _ hp; trivial
  -- Resume
  · intro sg y ys pos nd rest l q s _ _ _ h; exact h
  · intro sg y ys pos nd rest _ _ _ _; trivial
  · intro sg y ys pos nd nd' rest rest' f s s1 q r0 r1 _ _ _ ih1 ih2 ih3 hy hr hp _
    obtain ⟨h1, h2, h3, h4⟩ := ih1 hr hp
    refine ih3 hy (fun o ho => hr o (h4 o ho)) hp (SeqPost.cons' h1 ?_ (ih2 h2))
    intro w v hd
    rw [stripEnd_cons (hntne y hy)]
    exact ReachesTo.append h3 hd
  · intro sg y ys pos nd rest f s s1 f' _ _ _ _ _ h; exact h
  · intro sg y ys pos nd rest f s s1 fs q _ _ _ _ _ h; exact h
  · intro sg y ys pos nd rest f s _ _ _ _ _ _; trivial

end Verif.Parser.Recovery
