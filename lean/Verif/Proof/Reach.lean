import Verif.Proof.Congr

/-! # Only the symbols that can come up matter -/

set_option linter.unusedSectionVars false

namespace Verif.Spec.Recovery

variable {σ L T : Type} {eps : T} {ps ps' : List (Production T)} {cand cand' : T → T → List (List T)}
  {solver : Option (Solver σ L T)} {tokens : List (Token L T)} {O : T → Prop}

/-- The candidates a choice leaves are among its candidates. -/
def RestIn (outs : List (List T)) {β : Type} : Outcome σ (Derived L T) β → Prop
  | .found (.node _ _ rest) _ => ∀ o ∈ rest, o ∈ outs
  | _ => True

mutual
theorem choice_rest {x : T} {pos : Nat} {outs : List (List T)} {single : Bool} {s : σ}
    {r : Outcome σ (Derived L T) (FailedSymbol L T)} :
    Choice eps ps cand solver tokens x pos outs single s r → RestIn outs r
  | .derived _ _ _ _ _ _ d h => by
      have ih := alts_rest h
      cases d with
      | node n q rest => exact ih
      | fixed => trivial
  | .panicked .. => trivial
  | .fixed .. => trivial
  | .failed .. => trivial
  | .solverPanics .. => trivial
theorem alts_rest {x : T} {pos : Nat} {outs : List (List T)} {single : Bool} {s : σ}
    {r : Outcome σ (Derived L T) (List (FailedProduction L T))} :
    Alts eps ps cand solver tokens x pos single outs s r → RestIn outs r
  | .none .. => trivial
  | .node _ _ _ _ outs _ _ _ _ _ => fun o ho => List.mem_cons_of_mem _ ho
  | .fixed .. => trivial
  | .next _ _ _ _ _ _ _ _ _ r _ h => by
      have ih := alts_rest h
      match r, ih with
      | .found (.node _ _ rest) _, ih => exact fun o ho => List.mem_cons_of_mem _ (ih o ho)
      | .found (.fixed _ _) _, _ => trivial
      | .failed _ _, _ => trivial
      | .panicked, _ => trivial
  | .panicked .. => trivial
end

mutual
theorem choice_reach (hnt : ∀ x, O x → (IsNonTerminal ps x ↔ IsNonTerminal ps' x))
    (hc : ∀ x a, O x → cand x a = cand' x a) (hcl : ∀ x a, O x → ∀ o ∈ cand x a, ∀ y ∈ o, O y)
    {x : T} {pos : Nat} {outs : List (List T)} {single : Bool} {s : σ}
    {r : Outcome σ (Derived L T) (FailedSymbol L T)} :
    Choice eps ps cand solver tokens x pos outs single s r → O x → (∀ o ∈ outs, ∀ y ∈ o, O y) →
    Choice eps ps' cand' solver tokens x pos outs single s r
  | .derived _ _ _ _ _ _ _ h => fun hx ho => .derived _ _ _ _ _ _ _ (alts_reach hnt hc hcl h hx ho)
  | .panicked _ _ _ _ _ h => fun hx ho => .panicked _ _ _ _ _ (alts_reach hnt hc hcl h hx ho)
  | .fixed _ _ _ _ _ _ _ _ _ h ha => fun hx ho =>
      .fixed _ _ _ _ _ _ _ _ _ (alts_reach hnt hc hcl h hx ho) ha
  | .failed _ _ _ _ _ _ _ _ h ha => fun hx ho =>
      .failed _ _ _ _ _ _ _ _ (alts_reach hnt hc hcl h hx ho) ha
  | .solverPanics _ _ _ _ _ _ _ _ h ha => fun hx ho =>
      .solverPanics _ _ _ _ _ _ _ _ (alts_reach hnt hc hcl h hx ho) ha
theorem alts_reach (hnt : ∀ x, O x → (IsNonTerminal ps x ↔ IsNonTerminal ps' x))
    (hc : ∀ x a, O x → cand x a = cand' x a) (hcl : ∀ x a, O x → ∀ o ∈ cand x a, ∀ y ∈ o, O y)
    {x : T} {pos : Nat} {outs : List (List T)} {single : Bool} {s : σ}
    {r : Outcome σ (Derived L T) (List (FailedProduction L T))} :
    Alts eps ps cand solver tokens x pos single outs s r → O x → (∀ o ∈ outs, ∀ y ∈ o, O y) →
    Alts eps ps' cand' solver tokens x pos single outs s r
  | .none _ _ _ _ => fun _ _ => .none _ _ _ _
  | .node _ _ _ _ _ _ _ _ _ h => fun _ ho =>
      .node _ _ _ _ _ _ _ _ _ (seq_reach hnt hc hcl h (ho _ List.mem_cons_self))
  | .fixed _ _ _ _ _ _ _ _ _ h hf => fun _ ho =>
      .fixed _ _ _ _ _ _ _ _ _ (seq_reach hnt hc hcl h (ho _ List.mem_cons_self)) hf
  | .next _ _ _ _ _ _ _ _ _ _ h h' => fun hx ho =>
      .next _ _ _ _ _ _ _ _ _ _ (seq_reach hnt hc hcl h (ho _ List.mem_cons_self))
        (alts_reach hnt hc hcl h' hx fun o h => ho o (List.mem_cons_of_mem _ h))
  | .panicked _ _ _ _ _ _ h => fun _ ho =>
      .panicked _ _ _ _ _ _ (seq_reach hnt hc hcl h (ho _ List.mem_cons_self))
theorem seq_reach (hnt : ∀ x, O x → (IsNonTerminal ps x ↔ IsNonTerminal ps' x))
    (hc : ∀ x a, O x → cand x a = cand' x a) (hcl : ∀ x a, O x → ∀ o ∈ cand x a, ∀ y ∈ o, O y)
    {single : Bool} {xs : List T} {pos : Nat} {s : σ} {r : SeqOutcome σ L T} :
    Seq eps ps cand solver tokens single xs pos s r → (∀ y ∈ xs, O y) →
    Seq eps ps' cand' solver tokens single xs pos s r
  | .nil _ _ _ => fun _ => .nil _ _ _
  | .eps _ _ _ _ _ h => fun ho =>
      .eps _ _ _ _ _ (seq_reach hnt hc hcl h fun y hy => ho y (List.mem_cons_of_mem _ hy))
  | .terminal _ _ _ _ _ _ h1 h2 h3 h => fun ho =>
      .terminal _ _ _ _ _ _ (fun h' => h1 ((hnt _ (ho _ List.mem_cons_self)).2 h')) h2 h3
        (seq_reach hnt hc hcl h fun y hy => ho y (List.mem_cons_of_mem _ hy))
  | .mismatch _ _ _ _ _ h1 h2 h3 => fun ho =>
      .mismatch _ _ _ _ _ (fun h' => h1 ((hnt _ (ho _ List.mem_cons_self)).2 h')) h2 h3
  | .runsOut _ _ _ _ _ h1 h2 => fun ho =>
      .runsOut _ _ _ _ _ ((hnt _ (ho _ List.mem_cons_self)).1 h1) h2
  | .nonTerminal _ x xs _ _ _ t _ _ _ _ _ h1 h2 h3 h4 h5 => fun ho => by
      have hx := ho x List.mem_cons_self
      have hxs : ∀ y ∈ xs, O y := fun y hy => ho y (List.mem_cons_of_mem _ hy)
      have i3 := choice_reach hnt hc hcl h3 hx (hcl x _ hx)
      have i4 := seq_reach hnt hc hcl h4 hxs
      have i5 := resume_reach hnt hc hcl h5 hx hxs
        (fun o h => hcl x t.tType hx o (choice_rest h3 o h))
      rw [hc x _ hx] at i3
      exact .nonTerminal _ _ _ _ _ _ _ _ _ _ _ _ ((hnt x hx).1 h1) h2 i3 i4 i5
  | .fixed _ x xs _ _ _ t _ _ _ h1 h2 h3 h4 => fun ho => by
      have hx := ho x List.mem_cons_self
      have i3 := choice_reach hnt hc hcl h3 hx (hcl x _ hx)
      have i4 := seq_reach hnt hc hcl h4 fun y hy => ho y (List.mem_cons_of_mem _ hy)
      rw [hc x _ hx] at i3
      exact .fixed _ _ _ _ _ _ _ _ _ _ ((hnt x hx).1 h1) h2 i3 i4
  | .failed _ x _ _ _ _ _ _ h1 h2 h3 => fun ho => by
      have hx := ho x List.mem_cons_self
      have i3 := choice_reach hnt hc hcl h3 hx (hcl x _ hx)
      rw [hc x _ hx] at i3
      exact .failed _ _ _ _ _ _ _ _ ((hnt x hx).1 h1) h2 i3
  | .panicked _ x _ _ _ _ h1 h2 h3 => fun ho => by
      have hx := ho x List.mem_cons_self
      have i3 := choice_reach hnt hc hcl h3 hx (hcl x _ hx)
      rw [hc x _ hx] at i3
      exact .panicked _ _ _ _ _ _ ((hnt x hx).1 h1) h2 i3
theorem resume_reach (hnt : ∀ x, O x → (IsNonTerminal ps x ↔ IsNonTerminal ps' x))
    (hc : ∀ x a, O x → cand x a = cand' x a) (hcl : ∀ x a, O x → ∀ o ∈ cand x a, ∀ y ∈ o, O y)
    {single : Bool} {x : T} {xs : List T} {pos : Nat} {n : Node L T} {rest : List (List T)}
    {r r' : SeqOutcome σ L T} :
    Resume eps ps cand solver tokens single x xs pos n rest r r' → O x → (∀ y ∈ xs, O y) →
    (∀ o ∈ rest, ∀ y ∈ o, O y) → Resume eps ps' cand' solver tokens single x xs pos n rest r r'
  | .found _ _ _ _ _ _ _ _ _ => fun _ _ _ => .found _ _ _ _ _ _ _ _ _
  | .panicked _ _ _ _ _ _ => fun _ _ _ => .panicked _ _ _ _ _ _
  | .again _ _ _ _ _ _ _ _ _ _ _ _ _ _ h1 h2 h3 => fun hx hxs hr =>
      .again _ _ _ _ _ _ _ _ _ _ _ _ _ _ (choice_reach hnt hc hcl h1 hx hr)
        (seq_reach hnt hc hcl h2 hxs)
        (resume_reach hnt hc hcl h3 hx hxs fun o h => hr o (choice_rest h1 o h))
  | .gaveUp _ _ _ _ _ _ _ _ _ _ h1 => fun hx _ hr =>
      .gaveUp _ _ _ _ _ _ _ _ _ _ (choice_reach hnt hc hcl h1 hx hr)
  | .fixDropped _ _ _ _ _ _ _ _ _ _ _ h1 => fun hx _ hr =>
      .fixDropped _ _ _ _ _ _ _ _ _ _ _ (choice_reach hnt hc hcl h1 hx hr)
  | .retryPanics _ _ _ _ _ _ _ _ h1 => fun hx _ hr =>
      .retryPanics _ _ _ _ _ _ _ _ (choice_reach hnt hc hcl h1 hx hr)
end

end Verif.Spec.Recovery
