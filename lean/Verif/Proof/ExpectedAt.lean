import Verif.Proof.Expected

/-! # Without conflicts a failing search looks at nothing behind the position where it is stuck -/

set_option linter.unusedSectionVars false

namespace Verif.Parser.Recovery

open Spec Spec.Recovery

variable {σ L T : Type} [DecidableEq T] {eps : T} {ps : List (Production T)}
  {cand : T → T → List (List T)} {tokens : List (Token L T)}

/-- The two inputs agree up to and including position `k`. -/
def AgreeAt (tokens tokens' : List (Token L T)) (k : Nat) : Prop := ∀ i, i ≤ k → tokens'[i]? = tokens[i]?

theorem AgreeAt.down {tokens tokens' : List (Token L T)} {k j : Nat} (h : AgreeAt tokens tokens' k)
    (hj : j ≤ k) : AgreeAt tokens tokens' j := fun i hi => h i (by omega)

/-- `y` is expected by the symbols `xs` at `pos`, and `R tokens'` holds for all inputs that agree up to the
position where it is. -/
def StuckIn (eps : T) (ps : List (Production T)) (cand : T → T → List (List T))
    (tokens : List (Token L T)) (xs : List T) (pos : Nat) (f : FailedSymbol L T)
    (R : List (Token L T) → Prop) : Prop :=
  ∃ y k v, Innermost f y ∧ pos ≤ k ∧ k ≤ tokens.length ∧
    ReachesTo eps ps xs (types tokens pos k) (y :: v) ∧ Stuck ps cand tokens y k ∧
    ∀ tokens', AgreeAt tokens tokens' k → R tokens'

/-- What a search for the symbols `xs` at `pos` gives. -/
def SeqAt (eps : T) (ps : List (Production T)) (cand : T → T → List (List T))
    (tokens : List (Token L T)) (sg : Bool) (xs : List T) (pos : Nat) (s : σ) :
    SeqOutcome σ L T → Prop
  | .found (l, q) s' => pos ≤ q ∧ q ≤ tokens.length ∧
      ReachesTo eps ps (stripEnd eps xs) (types tokens pos q) [] ∧
      ∀ tokens', AgreeAt tokens tokens' q → Seq eps ps cand none tokens' sg xs pos s (.found (l, q) s')
  | .failed (f, l) s' => StuckIn eps ps cand tokens (stripEnd eps xs) pos f fun tokens' =>
      Seq eps ps cand none tokens' sg xs pos s (.failed (f, l) s')
  | .panicked => True

/-- What deriving `x` at `pos` gives. -/
def ChoiceAt (eps : T) (ps : List (Production T)) (cand : T → T → List (List T))
    (tokens : List (Token L T)) (x : T) (pos : Nat) (outs : List (List T)) (sg : Bool) (s : σ) :
    Outcome σ (Derived L T) (FailedSymbol L T) → Prop
  | .found (.node n q rest) s' => rest = [] ∧ pos ≤ q ∧ q ≤ tokens.length ∧
      ReachesTo eps ps [x] (types tokens pos q) [] ∧
      ∀ tokens', AgreeAt tokens tokens' q →
        Choice eps ps cand none tokens' x pos outs sg s (.found (.node n q rest) s')
  | .found (.fixed _ _) _ => False
  | .failed f s' => (outs = [] → Stuck ps cand tokens x pos) →
      StuckIn eps ps cand tokens [x] pos f fun tokens' =>
        Choice eps ps cand none tokens' x pos outs sg s (.failed f s')
  | .panicked => True

/-- What trying candidates of `x` at `pos` gives. -/
def AltsAt (eps : T) (ps : List (Production T)) (cand : T → T → List (List T))
    (tokens : List (Token L T)) (x : T) (pos : Nat) (sg : Bool) (outs : List (List T)) (s : σ) :
    Outcome σ (Derived L T) (List (FailedProduction L T)) → Prop
  | .found (.node n q rest) s' => rest = [] ∧ pos ≤ q ∧ q ≤ tokens.length ∧
      ReachesTo eps ps [x] (types tokens pos q) [] ∧
      ∀ tokens', AgreeAt tokens tokens' q →
        Alts eps ps cand none tokens' x pos sg outs s (.found (.node n q rest) s')
  | .found (.fixed _ _) _ => False
  | .failed fps s' => (outs = [] ∧ fps = [] ∧ s' = s) ∨ (∃ fp, fps = [fp] ∧
      StuckIn eps ps cand tokens [x] pos fp.failedSymbol fun tokens' =>
        Alts eps ps cand none tokens' x pos sg outs s (.failed fps s'))
  | .panicked => True

theorem SeqAt.cons {a : Part L T} {r : SeqOutcome σ L T} {xs ys : List T} {pos pos' : Nat} {sg sg' : Bool}
    {s s0 : σ} (hle : pos ≤ pos')
    (hd : ∀ w v, ReachesTo eps ps (stripEnd eps xs) w v →
      ReachesTo eps ps (stripEnd eps ys) (types tokens pos pos' ++ w) v)
    (hR : ∀ tokens' k, pos' ≤ k → AgreeAt tokens tokens' k → ∀ r,
      Seq eps ps cand none tokens' sg xs pos' s r → Seq eps ps cand none tokens' sg' ys pos s0 (r.cons a))
    (h : SeqAt eps ps cand tokens sg xs pos' s r) : SeqAt eps ps cand tokens sg' ys pos s0 (r.cons a) := by
  have key : ∀ k, pos' ≤ k → types tokens pos k = types tokens pos pos' ++ types tokens pos' k := by
    intro k hk
    unfold types
    rw [← List.map_append, word_append tokens hle hk]
  match r, h with
  | .found (l, q) s', h =>
    obtain ⟨h1, h2, h3, h4⟩ := h
    exact ⟨by omega, h2, by rw [key q h1]; exact hd _ _ h3, fun tokens' ha => hR _ q h1 ha _ (h4 _ ha)⟩
  | .failed (f, l) s', h =>
    obtain ⟨y, k, v, hy, h1, h2, h3, h4, h5⟩ := h
    refine ⟨y, k, v, hy, by omega, h2, ?_, h4, fun tokens' ha => hR _ k h1 ha _ (h5 _ ha)⟩
    rw [key k h1]
    exact hd _ _ h3
  | .panicked, _ => trivial

/-- A non-terminal without candidates left is not retried. -/
theorem resume_nil (sg : Bool) (x : T) (xs : List T) (pos : Nat) (n : Node L T) (f : FailedSymbol L T)
    (l : List (Part L T)) (s : σ) (tokens : List (Token L T)) :
    Resume eps ps cand none tokens sg x xs pos n [] (.failed (f, l) s) (.failed (f, l) s) :=
  .gaveUp _ _ _ _ _ _ _ _ _ (.mk [] x) (.failed _ _ _ _ _ s s [] (.none _ _ _ _) rfl)

theorem choice_expectedAt (hw : WellFormed eps ps)
    (hcand : ∀ x a out, out ∈ cand x a → (⟨x, out⟩ : Production T) ∈ ps)
    (hcf : ∀ x a, (cand x a).length ≤ 1) {x : T} {pos : Nat}
    {outs : List (List T)} {sg : Bool} {s : σ} {r : Outcome σ (Derived L T) (FailedSymbol L T)}
    (h : Choice eps ps cand none tokens x pos outs sg s r) (hlen : outs.length ≤ 1)
    (houts : ∀ o ∈ outs, (⟨x, o⟩ : Production T) ∈ ps) (hpos : pos ≤ tokens.length) :
    ChoiceAt eps ps cand tokens x pos outs sg s r := by
  have hntne : ∀ y, IsNonTerminal ps y → y ≠ eps := by
    rintro y ⟨q, hq, rfl⟩
    exact (hw q hq).1
  refine (Choice.rec (eps := eps) (ps := ps) (cand := cand) (solver := none) (tokens := tokens)
    (motive_1 := fun x pos outs sg s r _ => outs.length ≤ 1 → (∀ o ∈ outs, (⟨x, o⟩ : Production T) ∈ ps) →
      pos ≤ tokens.length → ChoiceAt eps ps cand tokens x pos outs sg s r)
    (motive_2 := fun x pos sg outs s r _ => outs.length ≤ 1 → (∀ o ∈ outs, (⟨x, o⟩ : Production T) ∈ ps) →
      pos ≤ tokens.length → AltsAt eps ps cand tokens x pos sg outs s r)
    (motive_3 := fun sg ys pos s r _ => pos ≤ tokens.length → SeqAt eps ps cand tokens sg ys pos s r)
    (motive_4 := fun sg y ys pos nd rest r0 r1 _ => rest = [] →
      (∀ l q s, r0 = .found (l, q) s → r1 = .found (.ok nd :: l, q) s) ∧
      (∀ f s, r0 = .failed f s → r1 = .failed f s ∨ r1 = .panicked) ∧ (r0 = .panicked → r1 = .panicked))
    ?_ ?_ ?_ ?_ ?_ ?_ ?_ ?_ ?_ ?_ ?_ ?_ ?_ ?_ ?_ ?_ ?_ ?_ ?_ ?_ ?_ ?_ ?_ ?_ ?_ h) hlen houts hpos
  -- Choice
  · intro x pos outs sg s s' d _ ih hl ho hp
    have := ih hl ho hp
    cases d with
    | node n q rest =>
      obtain ⟨h1, h2, h3, h4, h5⟩ := this
      exact ⟨h1, h2, h3, h4, fun tokens' ha => .derived _ _ _ _ _ _ _ (h5 _ ha)⟩
    | fixed fs q => exact this
  · intro x pos outs sg s _ _ _ _ _; trivial
  · intro x pos outs sg s s1 s2 fps fr _ ha _ _ _ _
    simp [answer] at ha
  · intro x pos outs sg s s1 s2 fps halts hans ih hl ho hp hstuck
    rcases ih hl ho hp with ⟨h1, h2, h3⟩ | ⟨fp, h1, h2⟩
    · subst h1 h2 h3
      refine ⟨x, pos, [], .here _, Nat.le_refl _, hp,
        by simpa [types, word_self] using ReachesTo.refl _, hstuck rfl, ?_⟩
      intro tokens' _
      exact .failed _ _ _ _ _ s1 _ _ (.none _ _ _ _) (by rw [← hans]; rfl)
    · subst h1
      obtain ⟨y, k, v, hy, a, b, c, d, e⟩ := h2
      refine ⟨y, k, v, .deep _ _ fp _ (by simp) hy, a, b, c, d, ?_⟩
      intro tokens' ha
      exact .failed _ _ _ _ _ s1 _ _ (e _ ha) (by rw [← hans]; rfl)
  · intro x pos outs sg s s1 fps e _ _ _ _ _ _; trivial
  -- Alts
  · intro x pos sg s _ _ _
    exact .inl ⟨rfl, rfl, rfl⟩
  · intro x pos sg out outs s s' ns q _ ih hl ho hp
    obtain ⟨h1, h2, h3, h4⟩ := ih hp
    refine ⟨by simpa using hl, h1, h2, ?_, fun tokens' ha => .node _ _ _ _ _ _ _ _ _ (h4 _ ha)⟩
    have hq := ho out (by simp)
    have := Derives.of_production (eps := eps) hq
    rw [rhs_eq_strip hw hq] at this
    exact .head this h3
  · intro x pos sg out outs s s' l q hs hfx _ _ _ _
    obtain ⟨fs, hfs⟩ := hfx
    exact seq_no_fix hs _ _ _ rfl fs hfs
  · intro x pos sg out outs s s' f l r _ h0 ih1 _ hl ho hp
    have hos : outs = [] := by simpa using hl
    subst hos
    cases h0
    obtain ⟨y, k, v, hy, a, b, c, d, e⟩ := ih1 hp
    refine .inr ⟨_, rfl, y, k, v, hy, a, b, ?_, d, ?_⟩
    · have hq := ho out (by simp)
      have := Derives.of_production (eps := eps) hq
      rw [rhs_eq_strip hw hq] at this
      exact .head this c
    · intro tokens' ha
      exact .next _ _ _ _ _ _ _ _ _ _ (e _ ha) (.none _ _ _ _)
  · intro x pos sg out outs s _ _ _ _ _; trivial
  -- Seq
  · intro sg pos s hp
    exact ⟨Nat.le_refl _, hp, by simpa [types, word_self, stripEnd] using ReachesTo.refl _,
      fun _ _ => .nil _ _ _⟩
  · intro sg ys pos s r0 _ ih hp
    refine SeqAt.cons (Nat.le_refl _) ?_ ?_ (ih hp)
    · intro w v hd
      rw [strip_cons_eps]
      simpa [types, word_self] using hd
    · intro tokens' k _ _ r hr
      exact .eps _ _ _ _ _ hr
  · intro sg ys pos s t r0 hy he ht _ ih hp
    have hlt := (List.getElem?_eq_some_iff.1 ht).1
    refine SeqAt.cons (Nat.le_succ _) ?_ ?_ (ih hlt)
    · intro w v hd
      rw [stripEnd_cons he, types, word_one ht]
      exact ReachesTo.append (.one hy he) hd
    · intro tokens' k hk ha r hr
      exact .terminal _ _ _ _ _ _ hy he (by rw [ha pos (by omega), ht]) hr
  · intro sg y ys pos s hy he hne hp
    refine ⟨y, pos, stripEnd eps ys, .here _, Nat.le_refl _, hp, ?_, .inl ⟨hy, hne⟩, ?_⟩
    · rw [stripEnd_cons he]
      simpa [types, word_self] using ReachesTo.refl _
    · intro tokens' ha
      exact .mismatch _ _ _ _ _ hy he (by rw [ha pos (Nat.le_refl _)]; exact hne)
  · intro sg y ys pos s _ _ _; trivial
  · intro sg y ys pos s s1 t nd q rest r0 r1 hy ht _ _ _ ih1 ih2 ih3 hp
    obtain ⟨hrest, h1, h2, h3, h4⟩ := ih1 (hcf _ _) (fun o ho => hcand _ _ _ ho) hp
    subst hrest
    obtain ⟨k1, k2, k3⟩ := ih3 rfl
    have key : ∀ k, q ≤ k → types tokens pos k = types tokens pos q ++ types tokens q k := by
      intro k hk
      unfold types
      rw [← List.map_append, word_append tokens h1 hk]
    match r0, ih2 h2 with
    | .found (l, q') s', hr =>
      obtain ⟨a, b, c, d⟩ := hr
      rw [k1 _ _ _ rfl]
      refine ⟨by omega, b, ?_, ?_⟩
      · rw [stripEnd_cons (hntne y hy), key q' a]
        exact ReachesTo.append h3 c
      · intro tokens' ha
        exact .nonTerminal _ _ _ _ _ _ _ _ _ _ _ _ hy (by rw [ha pos (by omega), ht]) (h4 _ (ha.down a))
          (d _ ha) (.found _ _ _ _ _ _ _ _ _)
    | .failed (f, l) s', hr =>
      rcases k2 _ _ rfl with e | e
      · rw [e]
        obtain ⟨z, k, v, hz, a, b, c, d, e'⟩ := hr
        refine ⟨z, k, v, hz, by omega, b, ?_, d, ?_⟩
        · rw [stripEnd_cons (hntne y hy), key k a]
          exact ReachesTo.append h3 c
        · intro tokens' ha
          exact .nonTerminal _ _ _ _ _ _ _ _ _ _ _ _ hy (by rw [ha pos (by omega), ht]) (h4 _ (ha.down a))
            (e' _ ha) (resume_nil _ _ _ _ _ _ _ _ _)
      · rw [e]; trivial
    | .panicked, _ =>
      rw [k3 rfl]; trivial
  · intro sg y ys pos s s1 t fs q r0 hy ht _ _ ih1 _ hp
    exact (ih1 (hcf _ _) (fun o ho => hcand _ _ _ ho) hp).elim
  · intro sg y ys pos s s1 t f hy ht _ ih1 hp
    obtain ⟨z, k, v, hz, a, b, c, d, e⟩ := ih1 (hcf _ _) (fun o ho => hcand _ _ _ ho) hp
      (fun he => .inr ⟨hy, t, ht, he⟩)
    refine ⟨z, k, v ++ stripEnd eps ys, hz, a, b, ?_, d, ?_⟩
    · rw [stripEnd_cons (hntne y hy)]
      exact c.tail (stripEnd eps ys)
    · intro tokens' ha
      exact .failed _ _ _ _ _ _ _ _ hy (by rw [ha pos a, ht]) (e _ ha)
  · intro sg y ys pos s t hy ht _ _ hp; trivial
  -- Resume
  · intro sg y ys pos nd rest l q s _
    exact ⟨fun _ _ _ e => (by cases e; rfl), fun _ _ e => (nomatch e), fun e => nomatch e⟩
  · intro sg y ys pos nd rest _
    exact ⟨fun _ _ _ e => (nomatch e), fun _ _ e => (nomatch e), fun _ => rfl⟩
  · intro sg y ys pos nd nd' rest rest' f s s1 q r0 r1 hc _ _ _ _ _ hr
    subst hr
    cases hc with
    | derived _ _ _ _ _ _ _ h => cases h
  · intro sg y ys pos nd rest f s s1 f' hc _ hr
    subst hr
    cases hc with
    | failed _ _ _ _ _ s2 _ _ h ha =>
      cases h
      simp only [answer, Out.ok.injEq, Prod.mk.injEq, true_and] at ha
      subst ha
      exact ⟨fun _ _ _ e => (nomatch e), fun _ _ e => (by cases e; exact .inl rfl), fun e => nomatch e⟩
  · intro sg y ys pos nd rest f s s1 fs q hc _ hr
    subst hr
    cases hc with
    | derived _ _ _ _ _ _ _ h => cases h
    | fixed _ _ _ _ _ _ _ _ _ _ ha => simp [answer] at ha
  · intro sg y ys pos nd rest f s hc _ hr
    exact ⟨fun _ _ _ e => (nomatch e), fun _ _ e => .inr rfl, fun e => nomatch e⟩

end Verif.Parser.Recovery
