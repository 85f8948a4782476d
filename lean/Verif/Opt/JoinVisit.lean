import Verif.Opt.JoinBuild

/-! # A visited plan is the filtered product of its relations -/

namespace Verif.Opt

set_option linter.unusedSectionVars false

open JoinSet

variable {α : Type} [DecidableEq α]

/-- A column of a relation of the graph from `a` on. -/
def ColOk (rels : List (Plan α)) (a : Nat) (c : Col) : Prop :=
  a ≤ c.1 ∧ ∃ q, rels[c.1]? = some q ∧ c.2 < q.width

theorem ColOk.lt {rels : List (Plan α)} {a : Nat} {c : Col} (h : ColOk rels a c) : c.1 < rels.length := by
  obtain ⟨_, q, hq, _⟩ := h
  exact (List.getElem?_eq_some_iff.1 hq).1

theorem ColOk.append {rels : List (Plan α)} {a b : Nat} {c : Col} (h : ColOk rels a c) (hb : b ≤ a)
    (new : List (Plan α)) : ColOk (rels ++ new) b c := by
  have hl := h.lt
  obtain ⟨h1, q, hq, hw⟩ := h
  exact ⟨by omega, q, by rw [List.getElem?_append_left hl]; exact hq, hw⟩

/-- What the rest of the rule needs to know about an edge over relations from `a` on. -/
structure EdgeOk (rels : List (Plan α)) (a : Nat) (e : Edge α) : Prop where
  range : ∀ i, Mem i e.joinSet → a ≤ i ∧ i < rels.length
  union : e.joinSet = e.left ||| e.right
  leftNe : e.left ≠ 0#64
  rightNe : e.right ≠ 0#64
  disj : ∀ i, Mem i e.left → ¬ Mem i e.right
  cols : ∀ c ∈ e.filter.cols, ColOk rels a c ∧ Mem c.1 e.joinSet
  pairs : ∀ p ∈ e.pairs, ColOk rels a p.1 ∧ ColOk rels a p.2 ∧ p.1.1 ≠ p.2.1 ∧
    ∀ i, Mem i e.joinSet ↔ i = p.1.1 ∨ i = p.2.1
  safe : e.nullEq = true → ∀ x ∈ residual e, Spec.NoEquality x

theorem EdgeOk.append {rels : List (Plan α)} {a b : Nat} {e : Edge α} (h : EdgeOk rels a e) (hb : b ≤ a)
    (new : List (Plan α)) : EdgeOk (rels ++ new) b e where
  range i hi := by
    have := h.range i hi
    rw [List.length_append]
    omega
  union := h.union
  leftNe := h.leftNe
  rightNe := h.rightNe
  disj := h.disj
  cols c hc := ⟨(h.cols c hc).1.append hb new, (h.cols c hc).2⟩
  pairs p hp := by
    obtain ⟨h1, h2, h3⟩ := h.pairs p hp
    exact ⟨h1.append hb new, h2.append hb new, h3⟩
  safe := h.safe

theorem residual_cols {e : Edge α} {x : Expr α Col} (hx : x ∈ residual e) {c : Col} (hc : c ∈ x.cols) :
    c ∈ e.filter.cols := by
  rw [residual_eq] at hx
  exact (Expr.mem_cols _).2 ⟨x, (List.mem_filter.1 hx).1, hc⟩

theorem EdgeOk.local {rels : List (Plan α)} {a : Nat} {e : Edge α} (h : EdgeOk rels a e) {L : List Nat}
    (hL : ∀ i, Mem i e.joinSet → i ∈ L) : Local L fun x => e.holds x := by
  intro f g hfg
  have henv : ∀ c : Col, Mem c.1 e.joinSet → envOf f c = envOf g c := by
    intro c hc
    unfold envOf
    rw [hfg _ (hL _ hc)]
  have h1 : ∀ p ∈ e.pairs, pairHolds e.nullEq f p = pairHolds e.nullEq g p := by
    intro p hp
    obtain ⟨_, _, _, h3⟩ := h.pairs p hp
    unfold pairHolds
    rw [henv p.1 ((h3 _).2 (.inl rfl)), henv p.2 ((h3 _).2 (.inr rfl))]
  have h2 : ∀ x ∈ residual e, exprHolds f x = exprHolds g x := by
    intro x hx
    unfold exprHolds
    rw [Expr.eval_congr x fun c hc => henv c (h.cols c (residual_cols hx hc)).2]
  show e.holds f = e.holds g
  unfold Edge.holds
  rw [Bool.eq_iff_iff]
  simp only [Bool.and_eq_true, List.all_eq_true]
  constructor
  · rintro ⟨a1, a2⟩
    exact ⟨fun p hp => h1 p hp ▸ a1 p hp, fun x hx => h2 x hx ▸ a2 x hx⟩
  · rintro ⟨a1, a2⟩
    exact ⟨fun p hp => (h1 p hp).symm ▸ a1 p hp, fun x hx => (h2 x hx).symm ▸ a2 x hx⟩

theorem edges_local {rels : List (Plan α)} {a : Nat} {es : List (Edge α)} (h : ∀ e ∈ es, EdgeOk rels a e)
    {L : List Nat} (hL : ∀ e ∈ es, ∀ i, Mem i e.joinSet → i ∈ L) : Local L fun x => es.all (Edge.holds x) := by
  intro f g hfg
  have : ∀ e ∈ es, e.holds f = e.holds g := fun e he => (h e he).local (hL e he) f g hfg
  apply Bool.eq_iff_iff.2
  simp only [List.all_eq_true]
  exact ⟨fun h1 p hp => this p hp ▸ h1 p hp, fun h1 p hp => (this p hp).symm ▸ h1 p hp⟩

/-! ## The end points of a predicate -/

structure EndsOk (lm rm : List Col) (p : Pred α) (k : JoinSet × JoinSet) : Prop where
  leftNe : k.1 ≠ 0#64
  rightNe : k.2 ≠ 0#64
  left : ∀ i, Mem i k.1 → ∃ c ∈ lm, c.1 = i
  right : ∀ i, Mem i k.2 → ∃ c ∈ rm, c.1 = i
  cols : ∀ c ∈ p.1.cols, Mem c.1 (k.1 ||| k.2)
  key : ∀ q ∈ p.2, q.1 ∈ lm ∧ q.2 ∈ rm ∧ ∀ i, Mem i (k.1 ||| k.2) ↔ i = q.1.1 ∨ i = q.2.1

theorem endpoints_ok {ne : Bool} {lm rm : List Col} {p : Pred α} {k : JoinSet × JoinSet}
    (h : endpoints lm rm p.1 = .ok k) (hp : PredOk ne lm rm p) (hl : ∀ c ∈ lm, c.1 < 64) (hr : ∀ c ∈ rm, c.1 < 64)
    (hd : ∀ c ∈ lm, ∀ d ∈ rm, c.1 ≠ d.1) : EndsOk lm rm p k := by
  have hpc : ∀ c ∈ p.1.cols, c ∈ lm ∨ c ∈ rm := by
    intro c hc
    rcases hp with ⟨a, b, rfl, ha, hb⟩ | hp
    · simp only [Expr.cols, List.mem_cons, List.not_mem_nil, or_false] at hc
      rcases hc with rfl | rfl
      · exact .inl ha
      · exact .inr hb
    · exact hp.2.2.2 c hc
  have hp64 : ∀ c ∈ p.1.cols, c.1 < 64 := fun c hc => (hpc c hc).elim (hl c) (hr c)
  have ml := mem_ofCols hl
  have mr := mem_ofCols hr
  have mp := mem_ofCols hp64
  have cover : ∀ c ∈ p.1.cols, Mem c.1 (ofCols lm ||| ofCols rm) := by
    intro c hc
    rw [mem_or, ml, mr]
    exact (hpc c hc).imp (fun h => ⟨c, h, rfl⟩) fun h => ⟨c, h, rfl⟩
  -- the two possible outcomes
  have key : (k = ((ofCols lm ||| ofCols rm) &&& ofCols lm, (ofCols lm ||| ofCols rm) &&& ofCols rm) ∧
        ((ofCols p.1.cols).cardinality < 2 ∨ ofCols p.1.cols &&& ofCols lm = 0#64 ∨ ofCols p.1.cols &&& ofCols rm = 0#64)
      ∨ k = (ofCols p.1.cols &&& ofCols lm, ofCols p.1.cols &&& ofCols rm)) ∧ k.1 ≠ 0#64 ∧ k.2 ≠ 0#64 := by
    unfold endpoints at h
    by_cases hc : (ofCols p.1.cols).cardinality < 2
    · simp only [hc, if_true] at h
      split at h
      · cases h
      · rename_i hz
        simp only [Bool.or_eq_true, beq_iff_eq, not_or] at hz
        cases h
        exact ⟨.inl ⟨rfl, .inl hc⟩, hz.1, hz.2⟩
    · simp only [hc, if_false] at h
      split at h
      · rename_i hz
        simp only [Bool.or_eq_true, beq_iff_eq] at hz
        split at h
        · cases h
        · rename_i hz'
          cases h
          simp only [Bool.or_eq_true, beq_iff_eq, not_or] at hz'
          exact ⟨.inl ⟨rfl, .inr hz⟩, hz'.1, hz'.2⟩
      · rename_i hz
        simp only [Bool.or_eq_true, beq_iff_eq, not_or] at hz
        cases h
        exact ⟨.inr rfl, hz.1, hz.2⟩
  obtain ⟨key, n1, n2⟩ := key
  refine ⟨n1, n2, ?_, ?_, ?_, ?_⟩
  · intro i hi
    rcases key with ⟨rfl, _⟩ | rfl
    · exact (ml i).1 (mem_and.1 hi).2
    · exact (ml i).1 (mem_and.1 hi).2
  · intro i hi
    rcases key with ⟨rfl, _⟩ | rfl
    · exact (mr i).1 (mem_and.1 hi).2
    · exact (mr i).1 (mem_and.1 hi).2
  · intro c hc
    have h1 := cover c hc
    have h2 : Mem c.1 (ofCols p.1.cols) := (mp _).2 ⟨c, hc, rfl⟩
    rcases key with ⟨rfl, _⟩ | rfl
    · simp only [mem_or, mem_and] at h1 ⊢
      rcases h1 with h1 | h1 <;> simp [h1]
    · simp only [mem_or, mem_and] at h1 ⊢
      rcases h1 with h1 | h1 <;> simp [h1, h2]
  · intro q hq
    rcases hp with ⟨a, b, rfl, ha, hb⟩ | hp
    · simp only [List.mem_singleton] at hq
      subst hq
      refine ⟨ha, hb, ?_⟩
      have hab := hd a ha b hb
      have m1 : ∀ i, Mem i (ofCols (Expr.eq (α := α) a b).cols) ↔ i = a.1 ∨ i = b.1 := by
        intro i
        refine (mp i).trans ?_
        simp only [Expr.cols, List.mem_cons, List.not_mem_nil, or_false]
        constructor
        · rintro ⟨c, rfl | rfl, rfl⟩
          · exact .inl rfl
          · exact .inr rfl
        · rintro (rfl | rfl)
          · exact ⟨a, .inl rfl, rfl⟩
          · exact ⟨b, .inr rfl, rfl⟩
      have la : Mem a.1 (ofCols lm) := (ml _).2 ⟨a, ha, rfl⟩
      have rb : Mem b.1 (ofCols rm) := (mr _).2 ⟨b, hb, rfl⟩
      rcases key with ⟨_, hx⟩ | rfl
      · exfalso
        rcases hx with hx | hx | hx
        · exact hab (card_lt_two hx ((m1 _).2 (.inl rfl)) ((m1 _).2 (.inr rfl)))
        · exact eq_zero_iff.1 hx a.1 (mem_and.2 ⟨(m1 _).2 (.inl rfl), la⟩)
        · exact eq_zero_iff.1 hx b.1 (mem_and.2 ⟨(m1 _).2 (.inr rfl), rb⟩)
      · intro i
        simp only [mem_or, mem_and, m1]
        constructor
        · rintro (h | h) <;> exact h.1
        · rintro (rfl | rfl)
          · exact .inl ⟨.inl rfl, la⟩
          · exact .inr ⟨.inr rfl, rb⟩
    · rw [hp.1] at hq; cases hq

/-! ## Row widths -/

theorem rows_length (p : Plan α) (hv : Spec.Valid p) : ∀ r ∈ p.rows, r.length = p.width := by
  have hj : ∀ {l r : Plan α} (c : Row α → Row α → Bool), (∀ x ∈ l.rows, x.length = l.width) →
      (∀ x ∈ r.rows, x.length = r.width) → ∀ x ∈ joinRows c l.rows r.rows, x.length = l.width + r.width := by
    intro l r c hl hr x hx
    simp only [joinRows, List.mem_flatMap, List.mem_map, List.mem_filter] at hx
    obtain ⟨a, ha, b, hb, rfl⟩ := hx
    rw [List.length_append, hl a ha, hr b hb.1]
  induction p with
  | scan w rs => exact hv
  | unary a w f p ih => exact hv.2.2 _ (ih hv.1)
  | binary w f l r ihl ihr => exact hv.2.2.2 _ _ (ihl hv.1) (ihr hv.2.1)
  | proj es p ih =>
    intro r hr
    simp only [Plan.rows, List.mem_map] at hr
    obtain ⟨x, _, rfl⟩ := hr
    simp [Plan.width]
  | hashJoin l r on f pj ne ihl ihr =>
    intro x hx
    simp only [Plan.rows, List.mem_map] at hx
    obtain ⟨y, hy, rfl⟩ := hx
    cases pj with
    | none => exact hj _ (ihl hv.1) (ihr hv.2) y hy
    | some is => simp [pick, Plan.width]
  | loopJoin l r f pj ihl ihr =>
    intro x hx
    simp only [Plan.rows, List.mem_map] at hx
    obtain ⟨y, hy, rfl⟩ := hx
    cases pj with
    | none => exact hj _ (ihl hv.1) (ihr hv.2) y hy
    | some is => simp [pick, Plan.width]
  | cross l r ihl ihr => exact hj _ (ihl hv.1) (ihr hv.2)

/-! ## The visit -/

/-- The rows of the relations of a graph. -/
def relRows (rels : List (Plan α)) (i : Nat) : List (Row α) :=
  match rels[i]? with
  | some p => p.rows
  | none => []

theorem prod_congr {R R' : Nat → List (Row α)} {L : List Nat} (h : ∀ i ∈ L, R i = R' i) : prod R L = prod R' L := by
  induction L with
  | nil => rfl
  | cons i L ih =>
    simp only [prod]
    rw [h i (by simp), ih fun j hj => h j (by simp [hj])]

theorem relRows_append {rels : List (Plan α)} (new : List (Plan α)) {i : Nat} (h : i < rels.length) :
    relRows (rels ++ new) i = relRows rels i := by
  unfold relRows
  rw [List.getElem?_append_left h]

/-- The outcome of visiting a plan from graph `g`. -/
structure Visited (p : Plan α) (g g' : Graph α) (m : List Col) (rels : List (Plan α)) (es : List (Edge α)) : Prop where
  relations : g'.relations = g.relations ++ rels
  edges : g'.edges = g.edges ++ es
  cols : ∀ c ∈ m, ColOk g'.relations g.relations.length c
  edge : ∀ e ∈ es, EdgeOk g'.relations g.relations.length e
  valid : ∀ q ∈ rels, Spec.Valid q ∧ Spec.NoClash q
  width : m.length = p.width
  rows : p.rows.Perm (((prod (relRows g'.relations) (List.range' g.relations.length rels.length)).filter
    fun x => es.all (Edge.holds x)).map (proj m))

theorem Visited.relation (o : Options α) {p : Plan α} {g g' : Graph α} {m : List Col}
    (hv : Spec.Valid p) (hc : Spec.NoClash p) (h : addRelation o p g = .ok (g', m)) :
    Visited p g g' m [p] [] := by
  unfold addRelation at h
  split at h
  · cases h
  · cases h
    refine ⟨rfl, by simp, ?_, by simp, by simp [hv, hc], by simp, ?_⟩
    · intro c hc
      simp only [List.mem_map, List.mem_range] at hc
      obtain ⟨i, hi, rfl⟩ := hc
      exact ⟨Nat.le_refl _, p, by simp, hi⟩
    · have hR : relRows (g.relations ++ [p]) g.relations.length = p.rows := by simp [relRows]
      simp only [List.all_nil, List.filter_true, List.length_singleton, List.range'_one, prod, hR, List.map_singleton,
        List.map_flatMap]
      refine List.Perm.of_eq ?_
      have : ∀ r ∈ p.rows, proj ((List.range p.width).map fun i => (g.relations.length, i))
          (upd (fun _ => []) g.relations.length r) = r := by
        intro r hr
        rw [proj_leaf]
        · simp [upd]
        · simp [upd, rows_length p hv r hr]
      generalize p.rows = rs at this
      induction rs with
      | nil => rfl
      | cons r rs ih =>
        rw [List.flatMap_cons, this r (by simp), ← ih fun x hx => this x (by simp [hx])]
        rfl

theorem mapM_getElem {m m' : List Col} {is : List Nat} (h : is.mapM (fun i => m[i]?) = some m') :
    (∀ c ∈ m', c ∈ m) ∧ m'.length = is.length ∧ ∀ x : Asg α, proj m' x = is.map (proj m x).at := by
  induction is generalizing m' with
  | nil =>
    simp at h
    subst h
    simp [proj]
  | cons i is ih =>
    rw [List.mapM_cons] at h
    cases hi : m[i]? with
    | none => simp [hi] at h
    | some c =>
      cases hr : is.mapM (fun i => m[i]?) with
      | none => simp [hi, hr] at h
      | some cs =>
        simp [hi, hr] at h
        subst h
        obtain ⟨h1, h2, h3⟩ := ih hr
        refine ⟨?_, by simp [h2], fun x => ?_⟩
        · intro d hd
          rcases List.mem_cons.1 hd with rfl | hd
          · exact List.mem_of_getElem? hi
          · exact h1 d hd
        · have := h3 x
          simp only [proj] at this ⊢
          rw [List.map_cons, List.map_cons, this]
          congr 1
          exact (proj_at m x hi).symm

theorem projectExprs_ok {m m' : List Col} {es : List (Scalar α)} (h : projectExprs m es = .ok m') :
    (∀ c ∈ m', c ∈ m) ∧ m'.length = es.length ∧ ∀ x : Asg α, proj m' x = es.map (Scalar.eval (proj m x)) := by
  induction es generalizing m' with
  | nil => cases h; simp [proj]
  | cons e es ih =>
    cases e with
    | other f => cases h
    | col i =>
      simp only [projectExprs] at h
      split at h
      · rename_i c cs hc hcs
        cases h
        obtain ⟨h1, h2, h3⟩ := ih hcs
        refine ⟨?_, by simp [h2], fun x => ?_⟩
        · intro d hd
          rcases List.mem_cons.1 hd with rfl | hd
          · exact List.mem_of_getElem? hc
          · exact h1 d hd
        · have := h3 x
          simp only [proj] at this ⊢
          rw [List.map_cons, List.map_cons, this]
          congr 1
          exact (proj_at m x hc).symm
      · cases h

theorem projectMap_ok {m m' : List Col} {pj : Option (List Nat)} (h : projectMap m pj = .ok m') :
    (∀ c ∈ m', c ∈ m) ∧ (m'.length = match pj with | none => m.length | some is => is.length) ∧
      ∀ x : Asg α, proj m' x = pick pj (proj m x) := by
  cases pj with
  | none => cases h; simp [pick]
  | some is =>
    simp only [projectMap] at h
    split at h
    · rename_i n hn
      cases h
      obtain ⟨h1, h2, h3⟩ := mapM_getElem (α := α) hn
      exact ⟨h1, h2, h3⟩
    · cases h

theorem Visited.join (o : Options α) (ho : ∀ gs, (o.order gs).Perm gs) {l r : Plan α}
    {on : List (Scalar α × Scalar α)} {f : Option (JoinFilter α)} {pj : Option (List Nat)} {ne : Bool}
    {g g₁ g₂ : Graph α} {lm rm m : List Col} {rl rr : List (Plan α)} {el er : List (Edge α)}
    (hl : Visited l g g₁ lm rl el) (hr : Visited r g₁ g₂ rm rr er)
    (hs : ne = true → ∀ x, f = some x → Spec.NoEquality x.expr) (h64 : g₂.relations.length ≤ 64)
    {cs fs : List (Pred α)} (hcs : onConjuncts lm rm on = .ok cs) (hfs : filterConjuncts lm rm f = .ok fs)
    {gs : List (Group α)} (hgs : groupAll lm rm (cs ++ fs) [] = .ok gs) {es : List (Edge α)}
    (hes : addEdges ne (o.order gs) g₂.edges = .ok es) (hm : projectMap (lm ++ rm) pj = .ok m) :
    ∃ new, Visited (.hashJoin l r on f pj ne) g ⟨g₂.relations, es⟩ m (rl ++ rr) (el ++ er ++ new) := by
  obtain ⟨c1, c2⟩ := onConjuncts_ok ne hcs
  obtain ⟨f1, f2⟩ := filterConjuncts_ok hfs hs
  have hall : ∀ p ∈ cs ++ fs, PredOk ne lm rm p := fun p hp => (List.mem_append.1 hp).elim (c1 p) (f1 p)
  obtain ⟨g1, g2⟩ := groupAll_ok hgs (by simp)
  obtain ⟨new, e1, e2, e3⟩ := addEdges_ok hes
  simp only [List.flatMap_nil, List.nil_append] at g1
  have hgp : ∀ x ∈ gs, ∀ p ∈ x.2, PredOk ne lm rm p := fun x hx p hp =>
    hall p (g1.mem_iff.1 (List.mem_flatMap.2 ⟨x, hx, hp⟩))
  have hord : ∀ x, x ∈ o.order gs ↔ x ∈ gs := fun x => (ho gs).mem_iff
  have hlen1 : g₁.relations.length = g.relations.length + rl.length := by rw [hl.relations, List.length_append]
  have hlen2 : g₂.relations.length = g₁.relations.length + rr.length := by rw [hr.relations, List.length_append]
  have hlc : ∀ c ∈ lm, ColOk g₂.relations g.relations.length c := fun c hc => by
    rw [hr.relations]; exact (hl.cols c hc).append (Nat.le_refl _) _
  have hrc : ∀ c ∈ rm, ColOk g₂.relations g.relations.length c := fun c hc => by
    have := (hr.cols c hc).append (b := g.relations.length) (by omega) []
    simpa using this
  have hl64 : ∀ c ∈ lm, c.1 < 64 := fun c hc => Nat.lt_of_lt_of_le (hlc c hc).lt h64
  have hr64 : ∀ c ∈ rm, c.1 < 64 := fun c hc => Nat.lt_of_lt_of_le (hrc c hc).lt h64
  have hsep : ∀ c ∈ lm, ∀ d ∈ rm, c.1 ≠ d.1 := fun c hc d hd => by
    have := (hl.cols c hc).lt
    have := (hr.cols d hd).1
    omega
  have hends : ∀ x ∈ gs, ∀ p ∈ x.2, EndsOk lm rm p x.1 := fun x hx p hp =>
    endpoints_ok (g2 x hx p hp) (hgp x hx p hp) hl64 hr64 hsep
  have hnew : ∀ e ∈ new, EdgeOk g₂.relations g.relations.length e := by
    intro e he
    obtain ⟨x, hx, hi⟩ := e2 e he
    rw [hord] at hx
    have hcj := conj_group (hgp x hx)
    have hne : x.2 ≠ [] := by
      intro h0
      have h1 := hi.conj
      rw [h0] at h1
      have : e.filter.conjuncts ≠ [] := by
        cases hf : e.filter.conjuncts with
        | nil =>
          exfalso
          have : ∀ y : Expr α Col, y.conjuncts ≠ [] := by
            intro y
            induction y with
            | and l r ihl _ => simp [Expr.conjuncts, ihl]
            | eq => simp [Expr.conjuncts]
            | other => simp [Expr.conjuncts]
          exact this _ hf
        | cons => simp
      exact this h1
    obtain ⟨p0, hp0⟩ := List.exists_mem_of_ne_nil _ hne
    have he0 := hends x hx p0 hp0
    have ml : ∀ i, Mem i x.1.1 → ∃ c ∈ lm, c.1 = i := he0.left
    have mr : ∀ i, Mem i x.1.2 → ∃ c ∈ rm, c.1 = i := he0.right
    refine ⟨?_, ?_, ?_, ?_, ?_, ?_, ?_, ?_⟩
    · intro i hm
      rw [hi.joinSet, mem_or] at hm
      rcases hm with hm | hm
      · obtain ⟨c, hc, rfl⟩ := ml i hm
        exact ⟨(hlc c hc).1, (hlc c hc).lt⟩
      · obtain ⟨c, hc, rfl⟩ := mr i hm
        exact ⟨(hrc c hc).1, (hrc c hc).lt⟩
    · rw [hi.joinSet, hi.left, hi.right]
    · rw [hi.left]; exact he0.leftNe
    · rw [hi.right]; exact he0.rightNe
    · intro i h1 h2
      rw [hi.left] at h1
      rw [hi.right] at h2
      obtain ⟨c, hc, rfl⟩ := ml i h1
      obtain ⟨d, hd, h3⟩ := mr _ h2
      exact hsep c hc d hd h3.symm
    · intro c hc
      rw [Expr.mem_cols, hi.conj, hcj] at hc
      obtain ⟨y, hy, hc⟩ := hc
      obtain ⟨p, hp, rfl⟩ := List.mem_map.1 hy
      refine ⟨?_, ?_⟩
      · rcases hgp x hx p hp with ⟨a, b, rfl, ha, hb⟩ | h
        · simp only [Expr.cols, List.mem_cons, List.not_mem_nil, or_false] at hc
          rcases hc with rfl | rfl
          · exact hlc _ ha
          · exact hrc _ hb
        · exact (h.2.2.2 c hc).elim (hlc c) (hrc c)
      · rw [hi.joinSet]
        exact (hends x hx p hp).cols c hc
    · intro q hq
      rw [hi.pairs, List.mem_flatMap] at hq
      obtain ⟨p, hp, hq⟩ := hq
      obtain ⟨k1, k2, k3⟩ := (hends x hx p hp).key q hq
      refine ⟨hlc _ k1, hrc _ k2, hsep _ k1 _ k2, ?_⟩
      rw [hi.joinSet]
      exact k3
    · intro hne y hy
      rw [hi.nullEq] at hne
      rw [residual_eq, hi.conj, hcj] at hy
      obtain ⟨hy1, hy2⟩ := List.mem_filter.1 hy
      obtain ⟨p, hp, rfl⟩ := List.mem_map.1 hy1
      rcases hgp x hx p hp with ⟨a, b, rfl, ha, hb⟩ | h
      · have : (a, b) ∈ e.pairs := by
          rw [hi.pairs, List.mem_flatMap]
          exact ⟨_, hp, by simp⟩
        have h3 : matched e.pairs (Expr.eq (α := α) a b) = true := isPair_iff.2 (.inl this)
        simp [h3] at hy2
      · exact h.2.2.1 hne
  have hcond : ∀ x : Asg α, (onKeeps on ne (proj lm x) (proj rm x) && filterKeeps f (proj lm x) (proj rm x)) =
      new.all (Edge.holds x) := by
    intro x
    rw [c2, f2, ← List.all_append]
    rw [Bool.eq_iff_iff, List.all_eq_true, List.all_eq_true]
    constructor
    · intro h e he
      obtain ⟨y, hy, hi⟩ := e2 e he
      rw [hord] at hy
      rw [hi.holds (hgp y hy), List.all_eq_true]
      exact fun p hp => h p (g1.mem_iff.1 (List.mem_flatMap.2 ⟨y, hy, hp⟩))
    · intro h p hp
      obtain ⟨y, hy, hpy⟩ := List.mem_flatMap.1 (g1.mem_iff.2 hp)
      obtain ⟨e, he, hi⟩ := e3 y ((hord y).2 hy)
      have := h e he
      rw [hi.holds (hgp y hy), List.all_eq_true] at this
      exact this p hpy
  obtain ⟨m1, m2, m3⟩ := projectMap_ok (α := α) hm
  refine ⟨new, ?_, ?_, ?_, ?_, ?_, ?_, ?_⟩
  · rw [hr.relations, hl.relations, List.append_assoc]
  · simp only [e1, hr.edges, hl.edges, List.append_assoc]
  · intro c hc
    rcases List.mem_append.1 (m1 c hc) with h | h
    · exact hlc c h
    · exact hrc c h
  · intro e he
    simp only [List.mem_append] at he
    rcases he with (he | he) | he
    · simp only [hr.relations]
      exact (hl.edge e he).append (Nat.le_refl _) _
    · have := (hr.edge e he).append (b := g.relations.length) (by omega) []
      simpa using this
    · exact hnew e he
  · intro q hq
    rcases List.mem_append.1 hq with h | h
    · exact hl.valid q h
    · exact hr.valid q h
  · rw [m2]
    cases pj with
    | none => simp [Plan.width, hl.width, hr.width]
    | some is => simp [Plan.width]
  · have hA := hl.rows
    have hB := hr.rows
    rw [prod_congr (R' := relRows g₂.relations) (fun i hi => by
      rw [hr.relations, relRows_append]
      have := List.mem_range'_1.1 hi
      omega)] at hA
    have hj := join_prod (relRows g₂.relations) (L := List.range' g.relations.length rl.length)
      (M := List.range' g₁.relations.length rr.length) (fun i h1 h2 => by
        have := List.mem_range'_1.1 h1
        have := List.mem_range'_1.1 h2
        omega) (P := fun x => el.all (Edge.holds x)) (Q := fun x => er.all (Edge.holds x)) (m := proj lm) (n := proj rm)
      (edges_local hl.edge fun e he i hi => List.mem_range'_1.2 (by
        have := (hl.edge e he).range i hi; omega))
      (edges_local hr.edge fun e he i hi => List.mem_range'_1.2 (by
        have := (hr.edge e he).range i hi; omega))
      (proj_local fun c hc => List.mem_range'_1.2 (by
        have := (hl.cols c hc).1; have := (hl.cols c hc).lt; omega))
      (proj_local fun c hc => List.mem_range'_1.2 (by
        have := (hr.cols c hc).1; have := (hr.cols c hc).lt; omega))
      hA hB (fun a b => onKeeps on ne a b && filterKeeps f a b)
    simp only [Plan.rows]
    refine (hj.map _).trans (List.Perm.of_eq ?_)
    rw [List.map_map, hlen1, List.length_append, ← List.range'_append_1]
    have e4 : (fun x : Asg α => el.all (Edge.holds x) && (er.all (Edge.holds x) &&
        (onKeeps on ne (proj lm x) (proj rm x) && filterKeeps f (proj lm x) (proj rm x)))) =
        fun x => (el ++ er ++ new).all (Edge.holds x) := by
      funext x
      rw [hcond, List.all_append, List.all_append, Bool.and_assoc]
    rw [e4]
    apply List.map_congr_left
    intro x _
    rw [Function.comp_apply, m3, proj_append]

theorem visit_ok (o : Options α) (ho : ∀ gs, (o.order gs).Perm gs) (p : Plan α) (hv : Spec.Valid p)
    (hc : Spec.NoClash p) {g g' : Graph α} {m : List Col} (h : visit o p g = .ok (g', m))
    (h64 : g'.relations.length ≤ 64) : ∃ rels es, Visited p g g' m rels es := by
  induction p generalizing g g' m with
  | scan w rs => exact ⟨_, _, .relation o hv hc h⟩
  | binary w f l r _ _ => exact ⟨_, _, .relation o hv hc h⟩
  | loopJoin l r f pj _ _ => exact ⟨_, _, .relation o hv hc h⟩
  | cross l r _ _ => exact ⟨_, _, .relation o hv hc h⟩
  | unary a w f p _ =>
    simp only [visit] at h
    split at h
    · cases h
    · exact ⟨_, _, .relation o hv hc h⟩
  | proj es p ih =>
    simp only [visit] at h
    split at h
    · split at h
      · exact ⟨_, _, .relation o hv hc h⟩
      · split at h
        · cases h
        · rename_i g₁ m₁ h1
          split at h
          · rename_i m' hm
            cases h
            obtain ⟨rels, es', hw⟩ := ih hv hc h1 h64
            obtain ⟨p1, p2, p3⟩ := projectExprs_ok hm
            refine ⟨rels, es', hw.relations, hw.edges, fun c hc => hw.cols c (p1 c hc), hw.edge, hw.valid, p2, ?_⟩
            simp only [Plan.rows]
            refine (hw.rows.map _).trans (List.Perm.of_eq ?_)
            rw [List.map_map]
            apply List.map_congr_left
            intro x _
            rw [Function.comp_apply, p3]
          · cases h
    · exact ⟨_, _, .relation o hv hc h⟩
  | hashJoin l r on f pj ne ihl ihr =>
    simp only [visit] at h
    split at h
    · cases h
    · rename_i g₁ lm h1
      split at h
      · cases h
      · rename_i g₂ rm h2
        split at h
        · rename_i cs fs hcs hfs
          split at h
          · cases h
          · rename_i gs hgs
            split at h
            · rename_i es m' hes hm
              cases h
              obtain ⟨rr, er, hr⟩ := ihr hv.2 hc.2.1 h2 h64
              have : g₁.relations.length ≤ 64 := by
                have := congrArg List.length hr.relations
                rw [List.length_append] at this
                simp only at h64
                omega
              obtain ⟨rl, el, hl⟩ := ihl hv.1 hc.1 h1 this
              obtain ⟨new, hn⟩ := Visited.join o ho hl hr hc.2.2 h64 hcs hfs hgs hes hm
              exact ⟨_, _, hn⟩
            · cases h
        · cases h

end Verif.Opt
