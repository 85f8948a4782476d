import Verif.Opt.JoinTable

/-! # A rebuilt tree is the product of its relations filtered by its edges -/

namespace Verif.Opt

set_option linter.unusedSectionVars false

open JoinSet

variable {α : Type} [DecidableEq α]

/-! ## Columns -/

theorem findCol_some {c : Col} {m : List Col} {i : Nat} (h : findCol c m = some i) : m[i]? = some c := by
  unfold findCol at h
  obtain ⟨hlt, h1, _⟩ := List.findIdx?_eq_some_iff_getElem.1 h
  rw [List.getElem?_eq_getElem hlt]
  simpa using h1

theorem findCol_mem {c : Col} {m : List Col} (h : c ∈ m) : ∃ i, findCol c m = some i := by
  cases hf : findCol c m with
  | some i => exact ⟨i, rfl⟩
  | none =>
    unfold findCol at hf
    rw [List.findIdx?_eq_none_iff] at hf
    have := hf c h
    simp at this

theorem keep_ok (req m : List Col) :
    (∀ x : Asg α, proj (keepMap (keepCols req m) m) x = pick (keepCols req m) (proj m x)) ∧
    ((keepMap (keepCols req m) m).length = match keepCols req m with | none => m.length | some is => is.length) ∧
    (∀ c ∈ keepMap (keepCols req m) m, c ∈ m) ∧ ∀ c ∈ m, c ∈ req → c ∈ keepMap (keepCols req m) m := by
  have hv : ∀ i ∈ (m.zipIdx.filter fun e => decide (e.1 ∈ req)).map Prod.snd, ∃ c, m[i]? = some c := by
    intro i hi
    obtain ⟨⟨c, j⟩, h1, rfl⟩ := List.mem_map.1 hi
    exact ⟨c, List.mem_zipIdx_iff_getElem?.1 (List.mem_filter.1 h1).1⟩
  have hr : ∀ c ∈ m, c ∈ req → ∃ i ∈ (m.zipIdx.filter fun e => decide (e.1 ∈ req)).map Prod.snd, m[i]? = some c := by
    intro c hc hq
    obtain ⟨i, hi⟩ := List.mem_iff_getElem?.1 hc
    exact ⟨i, List.mem_map.2 ⟨(c, i), List.mem_filter.2 ⟨List.mem_zipIdx_iff_getElem?.2 hi, by simpa using hq⟩, rfl⟩, hi⟩
  unfold keepCols
  simp only
  generalize (m.zipIdx.filter fun e => decide (e.1 ∈ req)).map Prod.snd = is at hv hr
  by_cases h1 : is.isEmpty = true
  · simp only [h1, if_true, keepMap, pick]
    exact ⟨fun _ => trivial, trivial, fun _ h => h, fun _ h _ => h⟩
  · by_cases h2 : is.length < m.length
    · simp only [h1, h2, if_true, Bool.false_eq_true, if_false, keepMap, pick]
      refine ⟨?_, ?_, ?_, ?_⟩
      · intro x
        clear hr h1 h2
        induction is with
        | nil => rfl
        | cons i is ih =>
          obtain ⟨c, hc⟩ := hv i (by simp)
          have := ih fun j hj => hv j (by simp [hj])
          simp only [proj] at this ⊢
          rw [List.filterMap_cons, hc, List.map_cons, List.map_cons, this]
          congr 1
          exact (proj_at m x hc).symm
      · clear hr h1 h2
        induction is with
        | nil => rfl
        | cons i is ih =>
          obtain ⟨c, hc⟩ := hv i (by simp)
          rw [List.filterMap_cons, hc, List.length_cons, List.length_cons, ih fun j hj => hv j (by simp [hj])]
      · intro c hc
        obtain ⟨i, _, hi⟩ := List.mem_filterMap.1 hc
        exact List.mem_of_getElem? hi
      · intro c hc hq
        obtain ⟨i, hi, h⟩ := hr c hc hq
        exact List.mem_filterMap.2 ⟨i, hi, h⟩
    · simp only [h1, h2, if_false, Bool.false_eq_true, keepMap, pick]
      exact ⟨fun _ => trivial, trivial, fun _ h => h, fun _ h _ => h⟩

/-! ## Join keys and filters -/

theorem keyOf_ok {lm rm : List Col} {p : Col × Col} (h : (p.1 ∈ lm ∧ p.2 ∈ rm) ∨ (p.2 ∈ lm ∧ p.1 ∈ rm)) :
    ∃ k : Scalar α × Scalar α, keyOf lm rm p = some k ∧
      ∀ ne x, keyEq ne (k.1.eval (proj lm x)) (k.2.eval (proj rm x)) = pairHolds ne x p := by
  have first : ∀ {i j}, findCol p.1 lm = some i → findCol p.2 rm = some j →
      ∀ ne (x : Asg α), keyEq ne ((Scalar.col i).eval (proj lm x)) ((Scalar.col j).eval (proj rm x)) =
        pairHolds ne x p := by
    intro i j hi hj ne x
    simp only [Scalar.eval, pairHolds]
    rw [proj_at lm x (findCol_some hi), proj_at rm x (findCol_some hj)]
  have second : ∀ {i j}, findCol p.2 lm = some i → findCol p.1 rm = some j →
      ∀ ne (x : Asg α), keyEq ne ((Scalar.col i).eval (proj lm x)) ((Scalar.col j).eval (proj rm x)) =
        pairHolds ne x p := by
    intro i j hi hj ne x
    simp only [Scalar.eval, pairHolds]
    rw [proj_at lm x (findCol_some hi), proj_at rm x (findCol_some hj), keyEq_comm]
  unfold keyOf
  split
  · rename_i i j hi hj
    exact ⟨_, rfl, first hi hj⟩
  · rename_i hno
    split
    · rename_i i j hi hj
      exact ⟨_, rfl, second hi hj⟩
    · rename_i hno'
      exfalso
      rcases h with ⟨h1, h2⟩ | ⟨h1, h2⟩
      · obtain ⟨i, hi⟩ := findCol_mem h1
        obtain ⟨j, hj⟩ := findCol_mem h2
        exact hno i j hi hj
      · obtain ⟨i, hi⟩ := findCol_mem h1
        obtain ⟨j, hj⟩ := findCol_mem h2
        exact hno' i j hi hj

theorem keys_ok {lm rm : List Col} {ps : List (Col × Col)}
    (h : ∀ p ∈ ps, (p.1 ∈ lm ∧ p.2 ∈ rm) ∨ (p.2 ∈ lm ∧ p.1 ∈ rm)) :
    (ps.filterMap (keyOf (α := α) lm rm)).length = ps.length ∧ ∀ ne (x : Asg α),
      onKeeps (ps.filterMap (keyOf lm rm)) ne (proj lm x) (proj rm x) = ps.all (pairHolds ne x) := by
  induction ps with
  | nil => simp [onKeeps]
  | cons p ps ih =>
    obtain ⟨k, hk, hv⟩ := keyOf_ok (α := α) (h p (by simp))
    obtain ⟨i1, i2⟩ := ih fun q hq => h q (by simp [hq])
    rw [List.filterMap_cons, hk]
    refine ⟨by simp [i1], fun ne x => ?_⟩
    have := i2 ne x
    simp only [onKeeps] at this
    simp only [onKeeps, List.all_cons, hv, this]

theorem joinKeys_ok {edges : List (Edge α)} {lm rm : List Col} {on : List (Scalar α × Scalar α)}
    (h : ∀ e ∈ edges, ∀ p ∈ e.pairs, (p.1 ∈ lm ∧ p.2 ∈ rm) ∨ (p.2 ∈ lm ∧ p.1 ∈ rm))
    (ho : joinKeys edges lm rm = .ok on) {ne : Bool} (hne : ∀ e ∈ edges, e.nullEq = ne) :
    (∀ x : Asg α, onKeeps on ne (proj lm x) (proj rm x) =
      edges.all fun e => e.pairs.all (pairHolds e.nullEq x)) := by
  have h' : ∀ p ∈ edges.flatMap Edge.pairs, (p.1 ∈ lm ∧ p.2 ∈ rm) ∨ (p.2 ∈ lm ∧ p.1 ∈ rm) := by
    intro p hp
    obtain ⟨e, he, hp⟩ := List.mem_flatMap.1 hp
    exact h e he p hp
  obtain ⟨_, k2⟩ := keys_ok (α := α) h'
  unfold joinKeys at ho
  simp only at ho
  split at ho
  · cases ho
  · cases ho
    intro x
    rw [k2 ne x, List.all_flatMap]
    rw [Bool.eq_iff_iff, List.all_eq_true, List.all_eq_true]
    exact ⟨fun h1 e he => (hne e he).symm ▸ h1 e he, fun h1 e he => hne e he ▸ h1 e he⟩

theorem nullEqOf_ok {edges : List (Edge α)} {ne : Bool} (h : nullEqOf edges none = .ok ne) :
    (∀ e ∈ edges, e.nullEq = ne) ∧ (edges = [] → ne = false) := by
  have key : ∀ (es : List (Edge α)) (b : Bool), nullEqOf es (some b) = .ok ne → b = ne ∧ ∀ e ∈ es, e.nullEq = ne := by
    intro es
    induction es with
    | nil => intro b h; cases h; simp
    | cons e es ih =>
      intro b h
      simp only [nullEqOf] at h
      split at h
      · rename_i hb
        obtain ⟨h1, h2⟩ := ih b h
        refine ⟨h1, fun x hx => ?_⟩
        rcases List.mem_cons.1 hx with rfl | hx
        · rw [← hb, h1]
        · exact h2 x hx
      · cases h
  cases edges with
  | nil => cases h; simp
  | cons e es =>
    simp only [nullEqOf] at h
    obtain ⟨h1, h2⟩ := key es _ h
    refine ⟨fun x hx => ?_, by simp⟩
    rcases List.mem_cons.1 hx with rfl | hx
    · exact h1
    · exact h2 x hx

theorem andAll_conj {es : List (Expr α Col)} {e : Expr α Col} (h : andAll es = some e) :
    e.conjuncts = es.flatMap Expr.conjuncts := by
  cases es with
  | nil => cases h
  | cons a es =>
    simp only [andAll, Option.some.injEq] at h
    subst h
    rw [List.flatMap_cons]
    induction es generalizing a with
    | nil => simp
    | cons b es ih => simp [ih, Expr.conjuncts]

theorem sideOf_ok {lm rm : List Col} {c : Col} {si : Side × Nat} (h : sideOf lm rm c = some si) (x : Asg α) :
    sideAt (proj lm x) (proj rm x) si = envOf x c := by
  unfold sideOf at h
  split at h
  · rename_i i hi
    cases h
    exact proj_at lm x (findCol_some hi)
  · split at h
    · rename_i i hi
      cases h
      exact proj_at rm x (findCol_some hi)
    · cases h

theorem positionOf_ok {lm rm : List Col} {indices : List (Side × Nat)} {c : Col} {k : Nat}
    (h : positionOf lm rm indices c = some k) (e : Expr α Nat) (x : Asg α) :
    (JoinFilter.env ⟨e, indices⟩ (proj lm x) (proj rm x) k) = envOf x c := by
  unfold positionOf at h
  split at h
  · cases h
  · rename_i si hs
    obtain ⟨hlt, h1, _⟩ := List.findIdx?_eq_some_iff_getElem.1 h
    have h2 : indices[k]? = some si := by
      rw [List.getElem?_eq_getElem hlt]
      simpa using h1
    simp only [JoinFilter.env, h2]
    exact sideOf_ok hs x

theorem joinFilter_ok {edges : List (Edge α)} {lm rm : List Col} {set : JoinSet} {f : Option (JoinFilter α)}
    (h : joinFilter edges lm rm set = .ok f) :
    (∀ x : Asg α, filterKeeps f (proj lm x) (proj rm x) = edges.all fun e => (residual e).all (exprHolds x)) ∧
    ((∀ e ∈ edges, ∀ y ∈ residual e, Spec.NoEquality y) → ∀ y, f = some y → Spec.NoEquality y.expr) := by
  unfold joinFilter at h
  simp only at h
  split at h
  · split at h
    · rename_i hn
      cases h
      refine ⟨fun x => ?_, fun _ y hy => by cases hy⟩
      have : edges.flatMap residual = [] := by
        cases hp : edges.flatMap residual with
        | nil => rfl
        | cons a l => rw [hp] at hn; cases hn
      simp only [filterKeeps]
      rw [← List.all_flatMap, this]
      rfl
    · rename_i e he
      have hcj := andAll_conj he
      split at h
      · rename_i y hy
        cases h
        obtain ⟨h1, h2⟩ := Expr.mapM_some hy
        refine ⟨fun x => ?_, fun hq z hz => ?_⟩
        · simp only [filterKeeps, JoinFilter.keeps]
          have e1 : y.eval (JoinFilter.env ⟨y, compact lm rm e.cols []⟩ (proj lm x) (proj rm x)) = e.eval (envOf x) := by
            rw [h2, Expr.eval_map]
            apply Expr.eval_congr
            intro c hc
            obtain ⟨k, hk⟩ := h1 c hc
            rw [hk]
            exact positionOf_ok hk _ x
          rw [e1, ← List.all_flatMap, Bool.eq_iff_iff, beq_iff_eq, Expr.eval_true, hcj, List.all_eq_true]
          constructor
          · intro h3 z hz
            simp only [exprHolds, beq_iff_eq]
            rw [Expr.eval_true]
            exact fun w hw => h3 w (List.mem_flatMap.2 ⟨z, hz, hw⟩)
          · intro h3 w hw
            obtain ⟨z, hz, hw⟩ := List.mem_flatMap.1 hw
            have := h3 z hz
            simp only [exprHolds, beq_iff_eq] at this
            exact (Expr.eval_true z).1 this w hw
        · cases hz
          simp only
          rw [h2, Expr.noEquality_map, Expr.noEquality_iff, hcj]
          intro w hw
          obtain ⟨z, hz, hw⟩ := List.mem_flatMap.1 hw
          obtain ⟨e', he', hz⟩ := List.mem_flatMap.1 hz
          exact (Expr.noEquality_iff z).1 (hq e' he' z hz) w hw
      · cases h
  · cases h

theorem joinNode_rows (lp rp : Plan α) (on : List (Scalar α × Scalar α)) (f : Option (JoinFilter α))
    (keep : Option (List Nat)) (ne : Bool) :
    (joinNode lp rp on f keep ne).rows =
      (joinRows (fun a b => onKeeps on ne a b && filterKeeps f a b) lp.rows rp.rows).map (pick keep) := by
  unfold joinNode
  by_cases ho : on.isEmpty = true
  · have ho' : on = [] := by simpa using ho
    subst ho'
    simp only [List.isEmpty_nil, if_true]
    cases f with
    | some f => simp only [Plan.rows, onKeeps, List.all_nil, Bool.true_and, filterKeeps]
    | none =>
      cases keep with
      | some is =>
        simp only [Plan.rows, onKeeps, List.all_nil, Bool.true_and, filterKeeps]
        apply List.map_congr_left
        intro r _
        simp [pick, Scalar.eval, List.map_map, Function.comp_def]
      | none =>
        simp only [Plan.rows, onKeeps, List.all_nil, Bool.true_and, filterKeeps]
        have : (pick (α := α) none) = id := by funext r; rfl
        rw [this, List.map_id]
  · simp only [ho, Bool.false_eq_true, if_false, Plan.rows]

theorem joinNode_width (lp rp : Plan α) (on : List (Scalar α × Scalar α)) (f : Option (JoinFilter α))
    (keep : Option (List Nat)) (ne : Bool) :
    (joinNode lp rp on f keep ne).width = match keep with | none => lp.width + rp.width | some is => is.length := by
  unfold joinNode
  split
  · cases f <;> cases keep <;> simp [Plan.width]
  · cases keep <;> simp [Plan.width]

theorem joinNode_valid {lp rp : Plan α} (hl : Spec.Valid lp) (hr : Spec.Valid rp) (on : List (Scalar α × Scalar α))
    (f : Option (JoinFilter α)) (keep : Option (List Nat)) (ne : Bool) : Spec.Valid (joinNode lp rp on f keep ne) := by
  unfold joinNode
  split
  · cases f with
    | some f => exact ⟨hl, hr⟩
    | none => cases keep <;> exact ⟨hl, hr⟩
  · exact ⟨hl, hr⟩

theorem joinNode_noClash {lp rp : Plan α} (hl : Spec.NoClash lp) (hr : Spec.NoClash rp)
    {on : List (Scalar α × Scalar α)} {f : Option (JoinFilter α)} {keep : Option (List Nat)} {ne : Bool}
    (hf : ne = true → ∀ y, f = some y → Spec.NoEquality y.expr) : Spec.NoClash (joinNode lp rp on f keep ne) := by
  unfold joinNode
  split
  · cases f with
    | some f => exact ⟨hl, hr⟩
    | none => cases keep <;> exact ⟨hl, hr⟩
  · exact ⟨hl, hr, hf⟩

/-! ## Edges by number -/

theorem edgesAt_append {g : Graph α} {U V : List Nat} {es fs : List (Edge α)} (h1 : edgesAt g U = .ok es)
    (h2 : edgesAt g V = .ok fs) : edgesAt g (U ++ V) = .ok (es ++ fs) := by
  induction U generalizing es with
  | nil => cases h1; exact h2
  | cons i U ih =>
    rw [List.cons_append]
    simp only [edgesAt] at h1 ⊢
    split at h1
    · rename_i e es' he hes
      cases h1
      rw [he, ih hes]
      rfl
    · cases h1

theorem edgesAt_mem {g : Graph α} {U : List Nat} {es : List (Edge α)} (h : edgesAt g U = .ok es) (e : Edge α) :
    e ∈ es ↔ ∃ i ∈ U, g.edges[i]? = some e := by
  induction U generalizing es with
  | nil => cases h; simp
  | cons i U ih =>
    simp only [edgesAt] at h
    split at h
    · rename_i a es' he hes
      cases h
      rw [List.mem_cons, ih hes]
      constructor
      · rintro (rfl | ⟨j, h1, h2⟩)
        · exact ⟨i, by simp, he⟩
        · exact ⟨j, by simp [h1], h2⟩
      · rintro ⟨j, h1, h2⟩
        rcases List.mem_cons.1 h1 with rfl | h1
        · rw [he] at h2; exact .inl (Option.some.inj h2.symm)
        · exact .inr ⟨j, h1, h2⟩
    · cases h

theorem edgesAt_lt {g : Graph α} {U : List Nat} {es : List (Edge α)} (h : edgesAt g U = .ok es) {i : Nat}
    (hi : i ∈ U) : i < g.edges.length := by
  induction U generalizing es with
  | nil => cases hi
  | cons j U ih =>
    simp only [edgesAt] at h
    split at h
    · rename_i a es' he hes
      rcases List.mem_cons.1 hi with rfl | hi
      · exact (List.getElem?_eq_some_iff.1 he).1
      · exact ih hes hi
    · cases h

/-! ## The tree -/

/-- A tree built from the relations in `L` and the edges in `es` for the columns `req`. -/
structure Built (g : Graph α) (S : JoinSet) (req : List Col) (p : Plan α) (m : List Col) (L : List Nat)
    (es : List (Edge α)) : Prop where
  nodup : L.Nodup
  mem : ∀ i, i ∈ L ↔ Mem i S
  rows : p.rows.Perm (((prod (relRows g.relations) L).filter fun x => es.all (Edge.holds x)).map (proj m))
  width : m.length = p.width
  cols : ∀ c ∈ m, ColOk g.relations 0 c ∧ Mem c.1 S
  req : ∀ c ∈ req, ColOk g.relations 0 c → Mem c.1 S → c ∈ m
  edges : ∀ e ∈ es, e ∈ g.edges ∧ ∀ i, Mem i e.joinSet → Mem i S
  valid : Spec.Valid p
  noClash : Spec.NoClash p

theorem Built.leaf {g : Graph α} (hrel : ∀ q ∈ g.relations, Spec.Valid q ∧ Spec.NoClash q) {S : JoinSet} {id : Nat}
    {q : Plan α} (hq : g.relations[id]? = some q) (hS : ∀ j, Mem j S ↔ j = id) (req : List Col) :
    Built g S req (leafPlan q id req).1 (leafPlan q id req).2 [id] [] := by
  obtain ⟨hv, hn⟩ := hrel q (List.mem_of_getElem? hq)
  have hm : ∀ c ∈ (List.range q.width).map (fun i => (id, i)), ColOk g.relations 0 c ∧ Mem c.1 S := by
    intro c hc
    obtain ⟨i, hi, rfl⟩ := List.mem_map.1 hc
    exact ⟨⟨by simp, q, hq, List.mem_range.1 hi⟩, (hS id).2 rfl⟩
  have hR : relRows g.relations id = q.rows := by simp [relRows, hq]
  have hrows : ∀ m', (((prod (relRows g.relations) [id]).filter fun x => [].all (Edge.holds x)).map (proj m')) =
      q.rows.map fun r => proj m' (upd (fun _ => []) id r) := by
    intro m'
    simp only [List.all_nil, List.filter_true, prod, hR, List.map_singleton, List.map_flatMap]
    generalize q.rows = rs
    induction rs with
    | nil => rfl
    | cons r rs ih => rw [List.flatMap_cons, ih]; rfl
  have hfull : ∀ r ∈ q.rows, proj ((List.range q.width).map fun i => (id, i)) (upd (fun _ => []) id r) = r := by
    intro r hr
    rw [proj_leaf]
    · simp [upd]
    · simp [upd, rows_length q hv r hr]
  obtain ⟨k1, k2, k3, k4⟩ := keep_ok (α := α) req ((List.range q.width).map fun i => (id, i))
  have hall : ∀ c : Col, ColOk g.relations 0 c → Mem c.1 S → c ∈ (List.range q.width).map fun i => (id, i) := by
    rintro ⟨r, k⟩ ⟨_, q', hq', hw⟩ hs
    have : r = id := (hS r).1 hs
    subst this
    rw [hq] at hq'
    cases hq'
    exact List.mem_map.2 ⟨k, List.mem_range.2 hw, rfl⟩
  unfold leafPlan
  simp only
  split
  · rename_i hk
    refine ⟨by simp, by simp [hS], ?_, by simp, hm, fun c _ h1 h2 => hall c h1 h2, by simp, hv, hn⟩
    rw [hrows]
    refine List.Perm.of_eq ?_
    rw [List.map_congr_left hfull]
    simp
  · rename_i is hk
    rw [hk] at k1 k2 k3 k4
    refine ⟨by simp, by simp [hS], ?_, ?_, fun c hc => hm c (k3 c hc), fun c hc h1 h2 => k4 c (hall c h1 h2) hc,
      by simp, hv, hn⟩
    · rw [hrows]
      refine List.Perm.of_eq ?_
      simp only [Plan.rows]
      apply List.map_congr_left
      intro r hr
      rw [k1, hfull r hr]
      simp [pick, Scalar.eval, List.map_map, Function.comp_def]
    · rw [k2]
      simp [Plan.width]

theorem Built.join {g : Graph α} (hed : ∀ e ∈ g.edges, EdgeOk g.relations 0 e)
    {l r : JoinSet} (hd : ∀ i, Mem i l → ¬ Mem i r) {req : List Col} {edges : List (Edge α)}
    (hsub : ∀ e ∈ edges, e ∈ g.edges)
    (hconn : ∀ e ∈ edges, isSubset e.joinSet (l ||| r) = true ∧ isSubset e.joinSet l = false ∧
      isSubset e.joinSet r = false)
    {lp rp : Plan α} {lm rm : List Col} {L M : List Nat} {el er : List (Edge α)}
    (hl : Built g l (childReq req edges (inSet l)) lp lm L el)
    (hr : Built g r (childReq req edges fun rel => !inSet l rel && inSet r rel) rp rm M er)
    {ne : Bool} (hne : nullEqOf edges none = .ok ne) {on : List (Scalar α × Scalar α)}
    (hon : joinKeys edges lm rm = .ok on) {f : Option (JoinFilter α)}
    (hf : joinFilter edges lm rm (l ||| r) = .ok f) :
    Built g (l ||| r) req (joinNode lp rp on f (keepCols req (lm ++ rm)) ne)
      (keepMap (keepCols req (lm ++ rm)) (lm ++ rm)) (L ++ M) (edges ++ (el ++ er)) := by
  obtain ⟨n1, n2⟩ := nullEqOf_ok hne
  obtain ⟨f1, f2⟩ := joinFilter_ok hf
  obtain ⟨k1, k2, k3, k4⟩ := keep_ok (α := α) req (lm ++ rm)
  -- columns that the children keep
  have retainL : ∀ c, ColOk g.relations 0 c → Mem c.1 l → (c ∈ req ∨ ∃ e ∈ edges, c ∈ e.cols) → c ∈ lm := by
    intro c h1 h2 h3
    refine hl.req c ?_ h1 h2
    unfold childReq
    refine List.mem_filter.2 ⟨?_, (inSet_iff h2.lt).2 h2⟩
    rcases h3 with h3 | ⟨e, he, hc⟩
    · exact List.mem_append.2 (.inl h3)
    · exact List.mem_append.2 (.inr (List.mem_flatMap.2 ⟨e, he, hc⟩))
  have retainR : ∀ c, ColOk g.relations 0 c → Mem c.1 r → (c ∈ req ∨ ∃ e ∈ edges, c ∈ e.cols) → c ∈ rm := by
    intro c h1 h2 h3
    refine hr.req c ?_ h1 h2
    unfold childReq
    refine List.mem_filter.2 ⟨?_, ?_⟩
    · rcases h3 with h3 | ⟨e, he, hc⟩
      · exact List.mem_append.2 (.inl h3)
      · exact List.mem_append.2 (.inr (List.mem_flatMap.2 ⟨e, he, hc⟩))
    · have h4 : inSet l c.1 = false := by
        rw [Bool.eq_false_iff]
        intro h5
        exact hd c.1 ((inSet_iff h2.lt).1 h5) h2
      simp [h4, (inSet_iff h2.lt).2 h2]
  have hpairs : ∀ e ∈ edges, ∀ p ∈ e.pairs, (p.1 ∈ lm ∧ p.2 ∈ rm) ∨ (p.2 ∈ lm ∧ p.1 ∈ rm) := by
    intro e he p hp
    obtain ⟨p1, p2, _, p4⟩ := (hed e (hsub e he)).pairs p hp
    obtain ⟨c1, c2, c3⟩ := hconn e he
    rw [isSubset_iff] at c1
    rw [Bool.eq_false_iff, ne_eq, isSubset_iff] at c2 c3
    have m1 : Mem p.1.1 e.joinSet := (p4 _).2 (.inl rfl)
    have m2 : Mem p.2.1 e.joinSet := (p4 _).2 (.inr rfl)
    have q1 : p.1 ∈ e.cols := by
      unfold Edge.cols
      exact List.mem_append.2 (.inl (List.mem_flatMap.2 ⟨p, hp, by simp⟩))
    have q2 : p.2 ∈ e.cols := by
      unfold Edge.cols
      exact List.mem_append.2 (.inl (List.mem_flatMap.2 ⟨p, hp, by simp⟩))
    rcases mem_or.1 (c1 _ m1) with h1 | h1 <;> rcases mem_or.1 (c1 _ m2) with h2 | h2
    · exfalso
      apply c2
      intro i hi
      rcases (p4 i).1 hi with rfl | rfl
      · exact h1
      · exact h2
    · exact .inl ⟨retainL _ p1 h1 (.inr ⟨e, he, q1⟩), retainR _ p2 h2 (.inr ⟨e, he, q2⟩)⟩
    · exact .inr ⟨retainL _ p2 h2 (.inr ⟨e, he, q2⟩), retainR _ p1 h1 (.inr ⟨e, he, q1⟩)⟩
    · exfalso
      apply c3
      intro i hi
      rcases (p4 i).1 hi with rfl | rfl
      · exact h1
      · exact h2
  have hkeys := joinKeys_ok hpairs hon n1
  have hcond : ∀ x : Asg α, (onKeeps on ne (proj lm x) (proj rm x) && filterKeeps f (proj lm x) (proj rm x)) =
      edges.all (Edge.holds x) := by
    intro x
    rw [hkeys, f1, Bool.eq_iff_iff, Bool.and_eq_true, List.all_eq_true, List.all_eq_true, List.all_eq_true]
    constructor
    · rintro ⟨h1, h2⟩ e he
      unfold Edge.holds
      rw [h1 e he, h2 e he]
      rfl
    · intro h
      refine ⟨fun e he => ?_, fun e he => ?_⟩
      · have := h e he
        unfold Edge.holds at this
        exact (Bool.and_eq_true_iff.1 this).1
      · have := h e he
        unfold Edge.holds at this
        exact (Bool.and_eq_true_iff.1 this).2
  refine ⟨?_, ?_, ?_, ?_, ?_, ?_, ?_, ?_, ?_⟩
  · refine List.nodup_append.2 ⟨hl.nodup, hr.nodup, ?_⟩
    intro i hi j hj hij
    subst hij
    exact hd i ((hl.mem i).1 hi) ((hr.mem i).1 hj)
  · intro i
    rw [List.mem_append, hl.mem, hr.mem, mem_or]
  · rw [joinNode_rows]
    have hj := join_prod (relRows g.relations) (L := L) (M := M)
      (fun i h1 h2 => hd i ((hl.mem i).1 h1) ((hr.mem i).1 h2))
      (P := fun x => el.all (Edge.holds x)) (Q := fun x => er.all (Edge.holds x)) (m := proj lm) (n := proj rm)
      (edges_local (fun e he => hed e (hl.edges e he).1) fun e he i hi => (hl.mem i).2 ((hl.edges e he).2 i hi))
      (edges_local (fun e he => hed e (hr.edges e he).1) fun e he i hi => (hr.mem i).2 ((hr.edges e he).2 i hi))
      (proj_local fun c hc => (hl.mem _).2 (hl.cols c hc).2)
      (proj_local fun c hc => (hr.mem _).2 (hr.cols c hc).2)
      hl.rows hr.rows (fun a b => onKeeps on ne a b && filterKeeps f a b)
    refine (hj.map _).trans (List.Perm.of_eq ?_)
    rw [List.map_map]
    have e4 : (fun x : Asg α => el.all (Edge.holds x) && (er.all (Edge.holds x) &&
        (onKeeps on ne (proj lm x) (proj rm x) && filterKeeps f (proj lm x) (proj rm x)))) =
        fun x => (edges ++ (el ++ er)).all (Edge.holds x) := by
      funext x
      rw [hcond, List.all_append, List.all_append]
      cases el.all (Edge.holds x) <;> cases er.all (Edge.holds x) <;> simp
    rw [e4]
    apply List.map_congr_left
    intro x _
    rw [Function.comp_apply, k1, proj_append]
  · rw [k2, joinNode_width, List.length_append, hl.width, hr.width]
  · intro c hc
    rcases List.mem_append.1 (k3 c hc) with h | h
    · exact ⟨(hl.cols c h).1, mem_or.2 (.inl (hl.cols c h).2)⟩
    · exact ⟨(hr.cols c h).1, mem_or.2 (.inr (hr.cols c h).2)⟩
  · intro c hc h1 h2
    refine k4 c (List.mem_append.2 ?_) hc
    rcases mem_or.1 h2 with h2 | h2
    · exact .inl (retainL c h1 h2 (.inl hc))
    · exact .inr (retainR c h1 h2 (.inl hc))
  · intro e he
    simp only [List.mem_append] at he
    rcases he with he | he | he
    · exact ⟨hsub e he, isSubset_iff.1 (hconn e he).1⟩
    · exact ⟨(hl.edges e he).1, fun i hi => mem_or.2 (.inl ((hl.edges e he).2 i hi))⟩
    · exact ⟨(hr.edges e he).1, fun i hi => mem_or.2 (.inr ((hr.edges e he).2 i hi))⟩
  · exact joinNode_valid hl.valid hr.valid _ _ _ _
  · refine joinNode_noClash hl.noClash hr.noClash fun hb => f2 fun e he => ?_
    exact (hed e (hsub e he)).safe ((n1 e he).trans hb)

/-- A tree that passes the check is rebuilt as the product of its relations filtered by the edges it uses. -/
theorem rebuild_ok {g : Graph α} {c : Costs} {strict : Prop} {fin : c.F → Prop} {t : Table c.F}
    (ht : Good g c strict fin t) (hed : ∀ e ∈ g.edges, EdgeOk g.relations 0 e)
    (hrel : ∀ q ∈ g.relations, Spec.Valid q ∧ Spec.NoClash q) (k : Nat) {S : JoinSet} {d : DP c.F} {req : List Col}
    {s s' : Seen} {p : Plan α} {m : List Col} (hS : t.get S = some d) (hv : validate g t k d s = .ok s')
    (hb : rebuild g t k d req = .ok (p, m)) :
    ∃ U L es, s'.uses = s.uses ++ U ∧ edgesAt g U = .ok es ∧ Built g S req p m L es := by
  induction k generalizing S d req s s' p m with
  | zero => cases hv
  | succ k ih =>
    obtain ⟨e1, _, _, _, e5⟩ := ht S d hS
    simp only [validate] at hv
    split at hv
    · cases hv
    · simp only [rebuild] at hb
      cases hk : d.kind with
      | leaf id =>
        rw [hk] at e5
        simp only [hk] at hv hb
        split at hb
        · rename_i q hq
          have hb' := Except.ok.inj hb
          have hp : (leafPlan q id req).1 = p := congrArg Prod.fst hb'
          have hm : (leafPlan q id req).2 = m := congrArg Prod.snd hb'
          subst hp hm
          split at hv
          · cases hv
          · split at hv
            · cases hv
            · split at hv
              · cases hv
              · cases hv
                exact ⟨[], [id], [], by simp, rfl, .leaf hrel hq e5 req⟩
        · cases hb
      | join l r us =>
        rw [hk] at e5
        simp only [hk] at hv hb
        obtain ⟨a1, a2, _, _, _⟩ := e5
        split at hv
        · cases hv
        · split at hv
          · cases hv
          · split at hv
            · cases hv
            · rename_i edges hedges
              split at hv
              · rename_i hconn
                split at hv
                · rename_i ld rd hld hrd
                  split at hv
                  · cases hv
                  · rename_i s₁ hv1
                    split at hb
                    · rename_i ld' rd' edges' hld' hrd' hedges'
                      rw [hld] at hld'
                      rw [hrd] at hrd'
                      rw [hedges] at hedges'
                      cases hld'
                      cases hrd'
                      cases hedges'
                      split at hb
                      · cases hb
                      · rename_i ne hne
                        split at hb
                        · cases hb
                        · rename_i lp lm hlb
                          split at hb
                          · cases hb
                          · rename_i rp rm hrb
                            split at hb
                            · rename_i on f hon hf
                              cases hb
                              obtain ⟨U₁, L₁, es₁, u1, u2, u3⟩ := ih hld hv1 hlb
                              obtain ⟨U₂, L₂, es₂, w1, w2, w3⟩ := ih hrd hv hrb
                              refine ⟨us ++ (U₁ ++ U₂), L₁ ++ L₂, edges ++ (es₁ ++ es₂), ?_, ?_, ?_⟩
                              · rw [w1, u1]
                                simp [List.append_assoc]
                              · exact edgesAt_append hedges (edgesAt_append u2 w2)
                              · rw [← a1]
                                refine .join hed a2 ?_ ?_ u3 w3 hne hon hf
                                · intro e he
                                  obtain ⟨i, _, hi⟩ := (edgesAt_mem hedges e).1 he
                                  exact List.mem_of_getElem? hi
                                · intro e he
                                  have := List.all_eq_true.1 hconn e he
                                  simp only [Bool.and_eq_true, Bool.not_eq_true'] at this
                                  rw [a1, ← e1]
                                  exact ⟨this.1.1, this.1.2, this.2⟩
                            · cases hb
                    · cases hb
                · cases hv
              · cases hv

theorem finalExprs_ok {final target : List Col} {es : List (Scalar α)} (h : finalExprs final target = .ok es) :
    es.length = target.length ∧ ∀ x : Asg α, es.map (Scalar.eval (proj final x)) = proj target x := by
  induction target generalizing es with
  | nil => cases h; simp [proj]
  | cons c cs ih =>
    simp only [finalExprs] at h
    split at h
    · rename_i i es' hi hes
      cases h
      obtain ⟨h1, h2⟩ := ih hes
      refine ⟨by simp [h1], fun x => ?_⟩
      have := h2 x
      simp only [proj] at this ⊢
      rw [List.map_cons, List.map_cons, this]
      congr 1
      exact proj_at final x (findCol_some hi)
    · cases h

/-- A region that is rewritten keeps its rows. -/
theorem region_ok (o : Options α) (ho : ∀ gs, (o.order gs).Perm gs) (costs : Graph α → Costs) {p q : Plan α}
    (hv : Spec.Valid p) (hc : Spec.NoClash p) (h : region o costs p = .ok q) :
    q.rows.Perm p.rows ∧ q.width = p.width ∧ Spec.Valid q ∧ Spec.NoClash q := by
  unfold region at h
  split at h
  · cases h
  · rename_i g target hvis
    split at h
    · cases h
    · split at h
      · cases h
      · rename_i best t hsol
        have h64 := solve_length hsol
        obtain ⟨rels, es, hw⟩ := visit_ok o ho p hv hc hvis h64
        have hr : g.relations = rels := by simpa [Graph.empty] using hw.relations
        have he : g.edges = es := by simpa [Graph.empty] using hw.edges
        have hed : ∀ e ∈ g.edges, EdgeOk g.relations 0 e := by
          intro e hm
          rw [he] at hm
          exact hw.edge e hm
        have hrel : ∀ q ∈ g.relations, Spec.Valid q ∧ Spec.NoClash q := by
          intro q hq
          rw [hr] at hq
          exact hw.valid q hq
        obtain ⟨all, hall⟩ := fromIter_total (l := List.range g.relations.length) fun i hi => by
          have := List.mem_range.1 hi
          omega
        have hfound := solve_ok (g := g) (c := costs g) (strict := False) (fin := fun _ => True)
          (threshold := o.emitThreshold) (fun h => h.elim) fuel (by decide) hall
        rw [hsol] at hfound
        obtain ⟨hgood, hroot⟩ := hfound
        split at h
        · cases h
        · rename_i u hval
          split at h
          · cases h
          · rename_i tree final hreb
            split at h
            · rename_i xs hxs
              cases h
              unfold validateRoot at hval
              rw [hall] at hval
              simp only at hval
              split at hval
              · cases hval
              · rename_i hset
                split at hval
                · cases hval
                · rename_i s hs
                  split at hval
                  · rename_i hcount
                    obtain ⟨U, L, es', u1, u2, b⟩ := rebuild_ok hgood hed hrel fuel hroot hs hreb
                    simp only [List.nil_append] at u1
                    obtain ⟨x1, x2⟩ := finalExprs_ok (α := α) hxs
                    have hmem : ∀ e, e ∈ es' ↔ e ∈ g.edges := by
                      intro e
                      constructor
                      · exact fun h => (b.edges e h).1
                      · intro h
                        obtain ⟨i, hi⟩ := List.mem_iff_getElem?.1 h
                        rw [edgesAt_mem u2]
                        refine ⟨i, ?_, hi⟩
                        have := List.all_eq_true.1 hcount i (List.mem_range.2 (List.getElem?_eq_some_iff.1 hi).1)
                        rw [beq_iff_eq, u1] at this
                        exact List.count_pos_iff.1 (by omega)
                    have hperm : L.Perm (List.range g.relations.length) := by
                      refine (List.perm_ext_iff_of_nodup b.nodup List.nodup_range).2 fun i => ?_
                      rw [b.mem, (fromIter_ok hall).2]
                    refine ⟨?_, ?_, b.valid, b.noClash⟩
                    · simp only [Plan.rows]
                      refine (b.rows.map _).trans ?_
                      rw [List.map_map]
                      have e1 : ((fun r => xs.map (Scalar.eval r)) ∘ proj final) = proj (α := α) target := by
                        funext x
                        rw [Function.comp_apply, x2]
                      rw [e1]
                      refine List.Perm.trans ?_ hw.rows.symm
                      refine List.Perm.map _ ?_
                      have e2 : (fun x : Asg α => es'.all (Edge.holds x)) = fun x => es.all (Edge.holds x) := by
                        funext x
                        rw [Bool.eq_iff_iff, List.all_eq_true, List.all_eq_true, ← he]
                        exact ⟨fun h e hm => h e ((hmem e).2 hm), fun h e hm => h e ((hmem e).1 hm)⟩
                      rw [e2]
                      refine List.Perm.filter _ ?_
                      refine (prod_perm _ hperm b.nodup).trans (List.Perm.of_eq ?_)
                      rw [hr, List.range_eq_range']
                      rfl
                    · simp only [Plan.width]
                      rw [x1, hw.width]
                  · cases hval
            · cases h

end Verif.Opt
