import Verif.Opt.JoinExpr

/-! # A visited plan is the filtered product of its relations -/

namespace Verif.Opt

set_option linter.unusedSectionVars false

open JoinSet

variable {α : Type} [DecidableEq α]

/-! ## The predicates of a join -/

/-- What a predicate of the builder means. -/
def predHolds (ne : Bool) (h : Asg α) (p : Pred α) : Bool :=
  match p.2 with
  | [] => exprHolds h p.1
  | ps => ps.all (pairHolds ne h)

/-- The predicates the builder makes from a join of column maps `lm` and `rm`. -/
def PredOk (ne : Bool) (lm rm : List Col) (p : Pred α) : Prop :=
  (∃ a b, p = (.eq a b, [(a, b)]) ∧ a ∈ lm ∧ b ∈ rm) ∨
  (p.2 = [] ∧ p.1.IsAtom ∧ (ne = true → Spec.NoEquality p.1) ∧ ∀ c ∈ p.1.cols, c ∈ lm ∨ c ∈ rm)

theorem resolveKey_ok {m : List Col} {s : Scalar α} {c : Col} (h : resolveKey m s = .ok c) :
    c ∈ m ∧ ∀ x, s.eval (proj m x) = envOf x c := by
  cases s with
  | other f => cases h
  | col i =>
    simp only [resolveKey] at h
    split at h
    · rename_i d hd
      cases h
      exact ⟨List.mem_of_getElem? hd, fun x => proj_at m x hd⟩
    · cases h

theorem onConjuncts_ok {lm rm : List Col} (ne : Bool) {ks : List (Scalar α × Scalar α)} {ps : List (Pred α)}
    (h : onConjuncts lm rm ks = .ok ps) :
    (∀ p ∈ ps, PredOk ne lm rm p) ∧
      ∀ x, onKeeps ks ne (proj lm x) (proj rm x) = ps.all (predHolds ne x) := by
  induction ks generalizing ps with
  | nil => cases h; simp [onKeeps]
  | cons k ks ih =>
    obtain ⟨l, r⟩ := k
    simp only [onConjuncts] at h
    split at h
    · rename_i a b ha hb
      split at h
      · rename_i qs hq
        cases h
        obtain ⟨i1, i2⟩ := ih hq
        obtain ⟨a1, a2⟩ := resolveKey_ok ha
        obtain ⟨b1, b2⟩ := resolveKey_ok hb
        refine ⟨?_, fun x => ?_⟩
        · intro p hp
          rcases List.mem_cons.1 hp with rfl | hp
          · exact .inl ⟨a, b, rfl, a1, b1⟩
          · exact i1 p hp
        · have := i2 x
          simp only [onKeeps] at this
          simp only [onKeeps, List.all_cons, this, predHolds, a2, b2, pairHolds, List.all_nil, Bool.and_true]
      · cases h
    · cases h

theorem filterConjuncts_ok {lm rm : List Col} {ne : Bool} {f : Option (JoinFilter α)} {ps : List (Pred α)}
    (h : filterConjuncts lm rm f = .ok ps) (hs : ne = true → ∀ x, f = some x → Spec.NoEquality x.expr) :
    (∀ p ∈ ps, PredOk ne lm rm p) ∧
      ∀ x, filterKeeps f (proj lm x) (proj rm x) = ps.all (predHolds ne x) := by
  cases f with
  | none => cases h; simp [filterKeeps]
  | some f =>
    simp only [filterConjuncts] at h
    split at h
    · rename_i e he
      cases h
      obtain ⟨h1, h2⟩ := Expr.mapM_some he
      have hcol : ∀ k ∈ f.expr.cols, ∀ c, stableOf f lm rm k = some c → (c ∈ lm ∨ c ∈ rm) ∧
          ∀ x, f.env (proj lm x) (proj rm x) k = envOf x c := by
        intro k _ c hc
        simp only [stableOf] at hc
        split at hc
        · rename_i i hi
          exact ⟨.inl (List.mem_of_getElem? hc), fun x => by
            simp only [JoinFilter.env, hi, sideAt]; exact proj_at lm x hc⟩
        · rename_i i hi
          exact ⟨.inr (List.mem_of_getElem? hc), fun x => by
            simp only [JoinFilter.env, hi, sideAt]; exact proj_at rm x hc⟩
        · cases hc
      refine ⟨?_, fun x => ?_⟩
      · intro p hp
        obtain ⟨y, hy, rfl⟩ := List.mem_map.1 hp
        refine .inr ⟨rfl, Expr.conjuncts_atom e hy, fun hne => ?_, fun c hc => ?_⟩
        · have : Spec.NoEquality e := by
            rw [h2, Expr.noEquality_map]
            exact hs hne f rfl
          exact (Expr.noEquality_iff e).1 this y hy
        · have : c ∈ e.cols := (Expr.mem_cols e).2 ⟨y, hy, hc⟩
          rw [h2, Expr.cols_map, List.mem_map] at this
          obtain ⟨k, hk, rfl⟩ := this
          obtain ⟨d, hd⟩ := h1 k hk
          rw [hd]
          exact (hcol k hk d hd).1
      · have e1 : f.expr.eval (f.env (proj lm x) (proj rm x)) = e.eval (envOf x) := by
          rw [h2, Expr.eval_map]
          apply Expr.eval_congr
          intro k hk
          obtain ⟨d, hd⟩ := h1 k hk
          rw [hd]
          exact (hcol k hk d hd).2 x
        simp only [filterKeeps, JoinFilter.keeps, e1]
        rw [Bool.eq_iff_iff, beq_iff_eq, Expr.eval_true, List.all_eq_true]
        constructor
        · intro h3 p hp
          obtain ⟨y, hy, rfl⟩ := List.mem_map.1 hp
          simp [predHolds, exprHolds, h3 y hy]
        · intro h3 y hy
          simpa [predHolds, exprHolds] using h3 (y, []) (List.mem_map.2 ⟨y, hy, rfl⟩)
    · cases h

/-! ## Groups and edges -/

theorem insertGroup_perm (k : JoinSet × JoinSet) (p : Pred α) (gs : List (Group α)) :
    ((insertGroup k p gs).flatMap Prod.snd).Perm (p :: gs.flatMap Prod.snd) := by
  induction gs with
  | nil => simp [insertGroup]
  | cons g gs ih =>
    simp only [insertGroup]
    split
    · simp only [List.flatMap_cons, List.append_assoc, List.singleton_append]
      exact List.perm_middle
    · simp only [List.flatMap_cons]
      exact (ih.append_left _).trans List.perm_middle

theorem mem_insertGroup {k : JoinSet × JoinSet} {p : Pred α} {gs : List (Group α)} {g : Group α}
    (h : g ∈ insertGroup k p gs) : g ∈ gs ∨ (g.1 = k ∧ ∀ q ∈ g.2, q = p ∨ ∃ g' ∈ gs, g'.1 = k ∧ q ∈ g'.2) := by
  induction gs with
  | nil =>
    simp only [insertGroup, List.mem_singleton] at h
    subst h
    exact .inr ⟨rfl, fun q hq => .inl (by simpa using hq)⟩
  | cons g' gs ih =>
    simp only [insertGroup] at h
    split at h
    · rename_i hk
      rcases List.mem_cons.1 h with rfl | h
      · refine .inr ⟨rfl, fun q hq => ?_⟩
        rcases List.mem_append.1 hq with hq | hq
        · exact .inr ⟨g', by simp, hk, hq⟩
        · exact .inl (by simpa using hq)
      · exact .inl (by simp [h])
    · rcases List.mem_cons.1 h with rfl | h
      · exact .inl (by simp)
      · rcases ih h with h | ⟨h1, h2⟩
        · exact .inl (by simp [h])
        · refine .inr ⟨h1, fun q hq => ?_⟩
          rcases h2 q hq with h3 | ⟨g'', h3, h4, h5⟩
          · exact .inl h3
          · exact .inr ⟨g'', by simp [h3], h4, h5⟩

theorem groupAll_ok {lm rm : List Col} {ps : List (Pred α)} {gs gs' : List (Group α)}
    (h : groupAll lm rm ps gs = .ok gs') (hg : ∀ g ∈ gs, ∀ q ∈ g.2, endpoints lm rm q.1 = .ok g.1) :
    (gs'.flatMap Prod.snd).Perm (gs.flatMap Prod.snd ++ ps) ∧
      ∀ g ∈ gs', ∀ q ∈ g.2, endpoints lm rm q.1 = .ok g.1 := by
  induction ps generalizing gs with
  | nil => cases h; simpa using hg
  | cons p ps ih =>
    simp only [groupAll] at h
    split at h
    · rename_i k hk
      obtain ⟨h1, h2⟩ := ih h fun g hg' q hq => by
        rcases mem_insertGroup hg' with h3 | ⟨h3, h4⟩
        · exact hg g h3 q hq
        · rcases h4 q hq with rfl | ⟨g', h5, h6, h7⟩
          · rw [h3]; exact hk
          · rw [h3, ← h6]; exact hg g' h5 q h7
      refine ⟨h1.trans ?_, h2⟩
      refine ((insertGroup_perm k p gs).append_right _).trans ?_
      rw [List.cons_append]
      exact List.perm_middle.symm
    · cases h

/-- The edge made from a group. -/
structure IsEdge (ne : Bool) (g : Group α) (e : Edge α) : Prop where
  nullEq : e.nullEq = ne
  left : e.left = g.1.1
  right : e.right = g.1.2
  joinSet : e.joinSet = g.1.1 ||| g.1.2
  conj : e.filter.conjuncts = g.2.flatMap fun p => p.1.conjuncts
  pairs : e.pairs = g.2.flatMap Prod.snd

theorem combine_ok {ps : List (Pred α)} {q : Pred α} (h : combine ps = .ok q) :
    q.1.conjuncts = (ps.flatMap fun p => p.1.conjuncts) ∧ q.2 = ps.flatMap Prod.snd := by
  cases ps with
  | nil => cases h
  | cons p ps =>
    simp only [combine, Except.ok.injEq] at h
    subst h
    simp only [List.flatMap_cons]
    induction ps generalizing p with
    | nil => simp
    | cons p' ps ih =>
      rw [List.foldl_cons]
      obtain ⟨h1, h2⟩ := ih (.and p.1 p'.1, p.2 ++ p'.2)
      rw [h1, h2]
      simp [Expr.conjuncts]

theorem addEdges_ok {ne : Bool} {gs : List (Group α)} {es es' : List (Edge α)} (h : addEdges ne gs es = .ok es') :
    ∃ new, es' = es ++ new ∧ (∀ e ∈ new, ∃ g ∈ gs, IsEdge ne g e) ∧ ∀ g ∈ gs, ∃ e ∈ new, IsEdge ne g e := by
  induction gs generalizing es with
  | nil => cases h; exact ⟨[], by simp⟩
  | cons g gs ih =>
    obtain ⟨⟨le, re⟩, ps⟩ := g
    simp only [addEdges] at h
    split at h
    · rename_i f prs hc
      obtain ⟨new, h1, h2, h3⟩ := ih h
      obtain ⟨c1, c2⟩ := combine_ok hc
      have he : IsEdge ne ((le, re), ps) ⟨le ||| re, le, re, f, ne, prs⟩ := ⟨rfl, rfl, rfl, rfl, c1, c2⟩
      refine ⟨⟨le ||| re, le, re, f, ne, prs⟩ :: new, by simp [h1], ?_, ?_⟩
      · intro e hm
        rcases List.mem_cons.1 hm with rfl | hm
        · exact ⟨_, by simp, he⟩
        · obtain ⟨g, hg, hx⟩ := h2 e hm
          exact ⟨g, by simp [hg], hx⟩
      · intro g hm
        rcases List.mem_cons.1 hm with rfl | hm
        · exact ⟨_, by simp, he⟩
        · obtain ⟨e, hg, hx⟩ := h3 g hm
          exact ⟨e, by simp [hg], hx⟩
    · cases h

theorem isPair_iff {ps : List (Col × Col)} {l r : Col} : isPair ps l r = true ↔ (l, r) ∈ ps ∨ (r, l) ∈ ps := by
  unfold isPair
  rw [List.any_eq_true]
  constructor
  · rintro ⟨⟨a, b⟩, h, hx⟩
    simp only [Bool.or_eq_true, Bool.and_eq_true, beq_iff_eq] at hx
    rcases hx with ⟨rfl, rfl⟩ | ⟨rfl, rfl⟩
    · exact .inl h
    · exact .inr h
  · rintro (h | h)
    · exact ⟨_, h, by simp⟩
    · exact ⟨_, h, by simp⟩

theorem predOk_atom {ne : Bool} {lm rm : List Col} {p : Pred α} (h : PredOk ne lm rm p) : p.1.IsAtom := by
  rcases h with ⟨a, b, rfl, _⟩ | h
  · trivial
  · exact h.2.1

theorem conj_group {ne : Bool} {lm rm : List Col} {ps : List (Pred α)} (h : ∀ p ∈ ps, PredOk ne lm rm p) :
    (ps.flatMap fun p => p.1.conjuncts) = ps.map Prod.fst := by
  induction ps with
  | nil => rfl
  | cons p ps ih =>
    rw [List.flatMap_cons, List.map_cons, (predOk_atom (h p (by simp))).conjuncts, ih fun q hq => h q (by simp [hq])]
    rfl

/-- An edge holds exactly when all predicates of its group do. -/
theorem IsEdge.holds {ne : Bool} {lm rm : List Col} {g : Group α} {e : Edge α} (he : IsEdge ne g e)
    (hp : ∀ p ∈ g.2, PredOk ne lm rm p) (x : Asg α) : e.holds x = g.2.all (predHolds ne x) := by
  rw [Bool.eq_iff_iff]
  unfold Edge.holds
  rw [Bool.and_eq_true, List.all_eq_true, List.all_eq_true, List.all_eq_true, residual_eq, he.conj, conj_group hp,
    he.nullEq]
  have hpair : ∀ {q}, q ∈ e.pairs → ∃ p ∈ g.2, q ∈ p.2 := by
    intro q hq
    rw [he.pairs, List.mem_flatMap] at hq
    exact hq
  constructor
  · rintro ⟨h1, h2⟩ p hm
    rcases hp p hm with ⟨a, b, rfl, ha, hb⟩ | ⟨h3, h4, h5, h6⟩
    · have : (a, b) ∈ e.pairs := by
        rw [he.pairs, List.mem_flatMap]
        exact ⟨_, hm, by simp⟩
      simpa [predHolds] using h1 _ this
    · simp only [predHolds, h3]
      by_cases hx : matched e.pairs p.1 = true
      · obtain ⟨y, q⟩ := p
        cases y with
        | and => cases h4
        | other => simp [matched] at hx
        | eq a b =>
          have hne : ne = false := by
            cases ne
            · rfl
            · exact absurd (h5 rfl) (by simp [Spec.NoEquality])
          simp only [matched, isPair_iff] at hx
          simp only [exprHolds, Expr.eval, beq_iff_eq]
          rw [← keyEq_false, ← hne]
          rcases hx with hx | hx
          · exact h1 _ hx
          · rw [keyEq_comm]; exact h1 _ hx
      · exact h2 p.1 (List.mem_filter.2 ⟨List.mem_map.2 ⟨p, hm, rfl⟩, by simp [hx]⟩)
  · intro h1
    refine ⟨fun q hq => ?_, fun y hy => ?_⟩
    · obtain ⟨p, hm, hqp⟩ := hpair hq
      have h2 := h1 p hm
      rcases hp p hm with ⟨a, b, rfl, ha, hb⟩ | ⟨h3, _⟩
      · simp only [List.mem_singleton] at hqp
        subst hqp
        simpa [predHolds] using h2
      · rw [h3] at hqp; cases hqp
    · obtain ⟨hy1, hy2⟩ := List.mem_filter.1 hy
      obtain ⟨p, hm, rfl⟩ := List.mem_map.1 hy1
      have h2 := h1 p hm
      rcases hp p hm with ⟨a, b, rfl, ha, hb⟩ | ⟨h3, _⟩
      · have : (a, b) ∈ e.pairs := by
          rw [he.pairs, List.mem_flatMap]
          exact ⟨_, hm, by simp⟩
        have h3 : matched e.pairs (Expr.eq (α := α) a b) = true := isPair_iff.2 (.inl this)
        simp [h3] at hy2
      · simpa [predHolds, h3] using h2

end Verif.Opt
