import Verif.Opt.JoinCheck
import Verif.Opt.StableName

/-! # C75, C76: join reordering -/

namespace Verif.Opt

open JoinSet

section

variable {α : Type} [DecidableEq α]

/-- What the traversal promises about the plan it returns for `p`. -/
def Same (p q : Plan α) : Prop := q.rows.Perm p.rows ∧ q.width = p.width ∧ Spec.Valid q ∧ Spec.NoClash q

theorem Same.region {o : Options α} (ho : ∀ gs, (o.order gs).Perm gs) (costs : Graph α → Costs) {p q : Plan α}
    (h : Same p q) : Same p (orKeep q (region o costs q)) := by
  obtain ⟨h1, h2, h3, h4⟩ := h
  cases hr : Verif.Opt.region o costs q with
  | error e => exact ⟨h1, h2, h3, h4⟩
  | ok q' =>
    obtain ⟨r1, r2, r3, r4⟩ := region_ok o ho costs h3 h4 hr
    exact ⟨r1.trans h1, r2.trans h2, r3, r4⟩

theorem optimize_same (o : Options α) (ho : ∀ gs, (o.order gs).Perm gs) (costs : Graph α → Costs) (p : Plan α)
    (hv : Spec.Valid p) (hc : Spec.NoClash p) : Same p (optimize o costs p) := by
  induction p with
  | scan w rs => exact Same.region ho costs ⟨.refl _, rfl, hv, hc⟩
  | unary a w f p ih =>
    obtain ⟨v1, v2, v3⟩ := hv
    obtain ⟨h1, h2, h3, h4⟩ := ih v1 hc
    refine Same.region ho costs ⟨v2 _ _ h1, rfl, ⟨h3, v2, ?_⟩, h4⟩
    rw [h2]
    exact v3
  | binary w f l r ihl ihr =>
    obtain ⟨v1, v2, v3, v4⟩ := hv
    obtain ⟨l1, l2, l3, l4⟩ := ihl v1 hc.1
    obtain ⟨r1, r2, r3, r4⟩ := ihr v2 hc.2
    refine Same.region ho costs ⟨v3 _ _ _ _ l1 r1, rfl, ⟨l3, r3, v3, ?_⟩, ⟨l4, r4⟩⟩
    rw [l2, r2]
    exact v4
  | proj es p ih =>
    obtain ⟨h1, h2, h3, h4⟩ := ih hv hc
    exact Same.region ho costs ⟨h1.map _, rfl, h3, h4⟩
  | hashJoin l r on f pj ne ihl ihr =>
    obtain ⟨l1, l2, l3, l4⟩ := ihl hv.1 hc.1
    obtain ⟨r1, r2, r3, r4⟩ := ihr hv.2 hc.2.1
    refine Same.region ho costs ⟨(joinRows_perm l1 r1).map _, ?_, ⟨l3, r3⟩, ⟨l4, r4, hc.2.2⟩⟩
    simp only [Plan.width, l2, r2]
  | loopJoin l r f pj ihl ihr =>
    obtain ⟨l1, l2, l3, l4⟩ := ihl hv.1 hc.1
    obtain ⟨r1, r2, r3, r4⟩ := ihr hv.2 hc.2
    refine Same.region ho costs ⟨(joinRows_perm l1 r1).map _, ?_, ⟨l3, r3⟩, ⟨l4, r4⟩⟩
    simp only [Plan.width, l2, r2]
  | cross l r ihl ihr =>
    obtain ⟨l1, l2, l3, l4⟩ := ihl hv.1 hc.1
    obtain ⟨r1, r2, r3, r4⟩ := ihr hv.2 hc.2
    refine Same.region ho costs ⟨joinRows_perm l1 r1, ?_, ⟨l3, r3⟩, ⟨l4, r4⟩⟩
    simp only [Plan.width, l2, r2]

/-- C75: reordering keeps the rows with their multiplicities and the columns in their order, for every estimator,
every budget and limit and every order of the predicate groups. Missing: plans in which a join has null-safe keys and
beside them a plain equality of two columns (see `C75_null_safe_key_swallows_equality`). -/
theorem C75_reorder_keeps_rows_partial (o : Options α) (ho : ∀ gs, (o.order gs).Perm gs) (costs : Graph α → Costs)
    (p : Plan α) (hv : Spec.Valid p) (hc : Spec.NoClash p) :
    (optimize o costs p).rows.Perm p.rows ∧ (optimize o costs p).width = p.width :=
  let h := optimize_same o ho costs p hv hc
  ⟨h.1, h.2.1⟩

/-- The rows are also as wide as the schema says. -/
theorem C75_rows_match_schema (o : Options α) (ho : ∀ gs, (o.order gs).Perm gs) (costs : Graph α → Costs)
    (p : Plan α) (hv : Spec.Valid p) (hc : Spec.NoClash p) :
    ∀ r ∈ (optimize o costs p).rows, r.length = p.width := by
  intro r hr
  have h := optimize_same o ho costs p hv hc
  rw [← h.2.1]
  exact rows_length _ h.2.2.1 r hr

/-- Plain joins never meet the exception. -/
theorem C75_plain_joins_keep_rows (o : Options α) (ho : ∀ gs, (o.order gs).Perm gs) (costs : Graph α → Costs)
    (a b c : Plan α) (ha : Spec.Valid a ∧ Spec.NoClash a) (hb : Spec.Valid b ∧ Spec.NoClash b)
    (hc : Spec.Valid c ∧ Spec.NoClash c) (on on' : List (Scalar α × Scalar α)) (f f' : Option (JoinFilter α))
    (pj pj' : Option (List Nat)) :
    (optimize o costs (.hashJoin (.hashJoin a b on f pj false) c on' f' pj' false)).rows.Perm
      (Plan.hashJoin (.hashJoin a b on f pj false) c on' f' pj' false).rows :=
  (C75_reorder_keeps_rows_partial o ho costs (.hashJoin (.hashJoin a b on f pj false) c on' f' pj' false)
    ⟨⟨ha.1, hb.1⟩, hc.1⟩ ⟨⟨ha.2, hb.2, by simp⟩, hc.2, by simp⟩).1

end

/-! ## Examples for C75 -/

namespace Example

/-- Estimators on natural numbers. -/
def costsWith (joins crosses : Nat → Nat → Nat) (start : Nat) : Costs where
  F := Nat
  lt a b := decide (a < b)
  eq a b := a == b
  inf := 10 ^ 9
  zero := 0
  leafCard i := .ok ([5, 7, 1, 2].getD i 3)
  joinCard a b _ := joins a b
  cost a b x y z := a + b + b + x + y + z
  penalize _ _ x _ := x
  crossCard := crosses
  crossCost := (· + 100)
  start := start

def costs : Nat → Costs := costsWith (· * ·) (· * ·)

def o (budget : Nat) : Options Nat := ⟨12, budget, id⟩

def a : Plan Nat := .scan 2 [[some 1, some 2], [some 3, none], [some 1, some 5]]
def b : Plan Nat := .scan 2 [[some 1, some 2], [some 3, none], [some 1, some 6]]
def c : Plan Nat := .scan 1 [[some 2], [none], [some 6], [some 6]]

/-- `SELECT c.x, a.y, a.x FROM a JOIN b ON a.x = b.x JOIN c ON b.y = c.x AND a.x < c.x`. -/
def p : Plan Nat := .hashJoin (.hashJoin a b [(.col 0, .col 0)] none none false) c [(.col 3, .col 0)]
  (some ⟨.other [0, 1] (fun l => match l with | [some x, some y] => some (decide (x < y)) | _ => none),
    [(.left, 0), (.right, 0)]⟩) (some [4, 1, 0]) false

/-- The shape of a plan: relations by their widths, joins by their keys. -/
def shape : Plan Nat → List Nat
  | .scan w _ => [w]
  | .proj _ p => 100 :: shape p
  | .hashJoin l r on _ _ _ => (200 + on.length) :: (shape l ++ shape r)
  | .loopJoin l r _ _ => 300 :: (shape l ++ shape r)
  | .cross l r => 400 :: (shape l ++ shape r)
  | _ => []

theorem valid_p : Spec.Valid p := by simp [p, a, b, c, Spec.Valid]

theorem noClash_p : Spec.NoClash p := by simp [p, a, b, c, Spec.NoClash]

-- the rule really changes the plan, with the full search and with the greedy fallback
example : shape p = [201, 201, 2, 2, 1] := by decide +kernel
example : shape (optimize (o 10000) (fun _ => costs 0) p) ≠ shape p := by decide +kernel
example : shape (optimize (o 0) (fun _ => costs 2) p) ≠ shape p := by decide +kernel
example : (optimize (o 10000) (fun _ => costs 0) p).rows.length = 6 := by decide +kernel

example : (optimize (o 10000) (fun _ => costs 0) p).rows.Perm p.rows ∧
    (optimize (o 10000) (fun _ => costs 0) p).width = p.width :=
  C75_reorder_keeps_rows_partial _ (fun _ => .refl _) _ p valid_p noClash_p

example : ∀ r ∈ (optimize (o 0) (fun _ => costs 2) p).rows, r.length = 3 :=
  C75_rows_match_schema _ (fun _ => .refl _) _ p valid_p noClash_p

/-- `a JOIN b ON a.x <=> b.x AND a.x = b.x JOIN c ON b.x <=> c.x`: the rows where `a.x` is NULL must go. -/
def clash : Plan Nat := .hashJoin
  (.hashJoin (.scan 1 [[some 1], [none]]) (.scan 1 [[some 1], [none]]) [(.col 0, .col 0)]
    (some ⟨.eq 0 1, [(.left, 0), (.right, 0)]⟩) none true)
  (.scan 1 [[some 1], [none]]) [(.col 1, .col 0)] none none true

end Example

/-- Without the exception the claim is false: an equality beside a null-safe key on the same columns is taken for that
key and dropped, so rows with NULL keys appear. -/
theorem C75_null_safe_key_swallows_equality :
    ∃ (o : Options Nat) (costs : Graph Nat → Costs) (p : Plan Nat), (∀ gs, (o.order gs).Perm gs) ∧ Spec.Valid p ∧
      p.rows = [[some 1, some 1, some 1]] ∧
      (optimize o costs p).rows.Perm [[some 1, some 1, some 1], [none, none, none]] := by
  refine ⟨Example.o 10000, fun _ => Example.costs 0, Example.clash, fun _ => .refl _, ?_, ?_, ?_⟩
  · simp [Example.clash, Spec.Valid]
  · decide +kernel
  · decide +kernel

/-! ## C76 -/

section

variable {α : Type} [DecidableEq α]

theorem validateRoot_fuel {g : Graph α} {c : Costs} {t : Table c.F} {all : JoinSet} {d : DP c.F}
    (ht : Good g c False (fun _ => True) t) (hd : t.get all = some d) : validateRoot g t fuel d ≠ .error .fuel := by
  unfold validateRoot
  split
  · rename_i e he
    rw [fromIter_err he]
    simp
  · split
    · simp
    · split
      · rename_i e he
        intro h
        cases h
        exact validate_fuel ht fuel hd (by have := card_le all; unfold fuel; omega) _ he
      · split <;> simp

/-- The graphs the rule searches: the relations and edges of a plan. -/
theorem edges_ok (o : Options α) (ho : ∀ gs, (o.order gs).Perm gs) {p : Plan α} (hv : Spec.Valid p)
    (hc : Spec.NoClash p) {g : Graph α} {target : List Col} (h : visit o p .empty = .ok (g, target))
    (h64 : g.relations.length ≤ 64) : ∀ e ∈ g.edges, EdgeOk g.relations 0 e := by
  obtain ⟨rels, es, hw⟩ := visit_ok o ho p hv hc h h64
  have he : g.edges = es := by simpa [Graph.empty] using hw.edges
  intro e hm
  rw [he] at hm
  exact hw.edge e hm

omit [DecidableEq α] in
theorem visit_err (o : Options α) (p : Plan α) (g : Graph α) {e : Err} (h : visit o p g = .error e) :
    e = .internal := by
  have rel : ∀ (p : Plan α) (g : Graph α) (e : Err), addRelation o p g = .error e → e = .internal := by
    intro p g e h
    unfold addRelation at h
    split at h
    · cases h; rfl
    · cases h
  have pe : ∀ (m : List Col) (es : List (Scalar α)) (e : Err), projectExprs m es = .error e → e = .internal := by
    intro m es e h
    cases es with
    | nil => cases h
    | cons x es =>
      cases x with
      | other f => cases h; rfl
      | col i =>
        simp only [projectExprs] at h
        split at h
        · cases h
        · cases h; rfl
  have ga : ∀ (lm rm : List Col) (ps : List (Pred α)) (gs : List (Group α)) (e : Err),
      groupAll lm rm ps gs = .error e → e = .internal := by
    intro lm rm ps
    induction ps with
    | nil => intro gs e h; cases h
    | cons q ps ih =>
      intro gs e h
      simp only [groupAll] at h
      split at h
      · exact ih _ _ h
      · rename_i e' he
        cases h
        unfold endpoints at he
        simp only at he
        repeat' split at he
        all_goals first | (cases he; rfl) | exact nomatch he
  induction p generalizing g e with
  | scan w rs => exact rel _ _ _ h
  | binary w f l r _ _ => exact rel _ _ _ h
  | loopJoin l r f pj _ _ => exact rel _ _ _ h
  | cross l r _ _ => exact rel _ _ _ h
  | unary a w f p _ =>
    simp only [visit] at h
    split at h
    · cases h; rfl
    · exact rel _ _ _ h
  | proj es p ih =>
    simp only [visit] at h
    split at h
    · split at h
      · exact rel _ _ _ h
      · split at h
        · rename_i e' he
          cases h
          exact ih _ he
        · split at h
          · cases h
          · rename_i e' he
            cases h
            exact pe _ _ _ he
    · exact rel _ _ _ h
  | hashJoin l r on f pj ne ihl ihr =>
    simp only [visit] at h
    split at h
    · rename_i e' he
      cases h
      exact ihl _ he
    · split at h
      · rename_i e' he
        cases h
        exact ihr _ he
      · split at h
        · split at h
          · rename_i e' he
            cases h
            exact ga _ _ _ _ _ he
          · split at h
            · cases h
            · cases h; rfl
        · cases h; rfl

/-- C76: the search ends. The model bounds the depth of every recursion by 65; no bound is ever reached, whatever the
plan, the estimator and the budget are. -/
theorem C76_search_ends (o : Options α) (costs : Graph α → Costs) (p : Plan α) : region o costs p ≠ .error .fuel := by
  unfold region
  split
  · rename_i e he
    rw [visit_err o p _ he]
    simp
  · rename_i g target _
    split
    · simp
    · cases hall : fromIter (List.range g.relations.length) with
      | error e =>
        have hbig : 64 < g.relations.length := by
          apply Classical.byContradiction
          intro hn
          obtain ⟨s, hs⟩ := fromIter_total (l := List.range g.relations.length) fun i hi => by
            have := List.mem_range.1 hi
            omega
          rw [hall] at hs
          cases hs
        have : ∀ (rs : List (Plan α)) (i : Nat) (t : Table (costs g).F), 64 < i + rs.length → 0 < rs.length →
            ∃ e', e' ≠ Err.fuel ∧ initLeaves (costs g) rs i t = .error e' := by
          intro rs
          induction rs with
          | nil => intro i t _ h; simp at h
          | cons r rs ih =>
            intro i t h1 _
            simp only [initLeaves]
            split
            · rename_i s card hs _
              have hi := (singleton_ok hs).1
              rw [List.length_cons] at h1
              exact ih _ _ (by omega) (by omega)
            · exact ⟨_, by simp, rfl⟩
        obtain ⟨e', h1, h2⟩ := this g.relations 0 [] (by omega) (by omega)
        unfold solve
        rw [h2]
        simpa using h1
      | ok all =>
        have hfound := solve_ok (g := g) (c := costs g) (strict := False) (fin := fun _ => True)
          (threshold := o.emitThreshold) (fun h => h.elim) fuel (by decide) hall
        split
        · rename_i e he
          rw [he] at hfound
          intro h
          cases h
          exact hfound rfl
        · rename_i best t hsol
          rw [hsol] at hfound
          obtain ⟨hgood, hroot⟩ := hfound
          split
          · rename_i e he
            intro h
            cases h
            exact validateRoot_fuel hgood hroot he
          · split
            · rename_i e he
              intro h
              cases h
              exact rebuild_fuel hgood fuel hroot (by have := card_le all; unfold fuel; omega) _ he
            · split
              · simp
              · rename_i final tree hreb e he
                intro h
                cases h
                have : ∀ (fl tg : List Col) (e : Err), finalExprs (α := α) fl tg = .error e → e = .internal := by
                  intro fl tg e h
                  cases tg with
                  | nil => cases h
                  | cons x tg =>
                    simp only [finalExprs] at h
                    split at h
                    · cases h
                    · cases h; rfl
                cases this _ _ _ he

/-- C76: with finite estimates the result of the search passes the check. -/
theorem C76_check_passes (o : Options α) (ho : ∀ gs, (o.order gs).Perm gs) {p : Plan α} (hv : Spec.Valid p)
    (hc : Spec.NoClash p) {g : Graph α} {target : List Col} (h : visit o p .empty = .ok (g, target))
    (budget : Nat) (c : Costs) (fin : c.F → Prop) (hf : Spec.FiniteEstimates c fin) {d : DP c.F} {t : Table c.F}
    (hs : solve g budget c fuel = .ok (d, t)) : validateRoot g t fuel d = .ok () := by
  have h64 := solve_length hs
  have hed := edges_ok o ho hv hc h h64
  obtain ⟨all, hall⟩ := fromIter_total (l := List.range g.relations.length) fun i hi => by
    have := List.mem_range.1 hi
    omega
  have hfound := solve_ok (g := g) (c := c) (strict := True) (fin := fin) (threshold := budget) (fun _ => hf) fuel
    (by decide) hall
  rw [hs] at hfound
  obtain ⟨hgood, hroot⟩ := hfound
  obtain ⟨s', U, v1, v2, v3, _⟩ := validate_ok trivial hgood hed fuel hroot
    (by have := card_le all; unfold fuel; omega) ⟨[], []⟩ (by simp)
  have hset := (hgood all d hroot).1
  unfold validateRoot
  simp only [hall, hset, ne_eq, not_true_eq_false, if_false, v1]
  rw [if_pos]
  rw [List.all_eq_true]
  intro i hi
  rw [v2, List.nil_append, v3, beq_iff_eq, if_pos]
  have hlt := List.mem_range.1 hi
  refine inside_iff.2 ⟨_, List.getElem?_eq_getElem hlt, fun x hx => ?_⟩
  rw [(fromIter_ok hall).2, List.mem_range]
  exact ((hed _ (List.getElem_mem hlt)).range x hx).2

/-- C76: a tree that passes the check reads every table exactly once and applies every predicate exactly once, at the
lowest join that has all its tables. The rule rebuilds only such trees (`region`), for every estimator and budget. -/
theorem C76_tables_and_predicates_once (o : Options α) (ho : ∀ gs, (o.order gs).Perm gs) {p : Plan α}
    (hv : Spec.Valid p) (hc : Spec.NoClash p) {g : Graph α} {target : List Col}
    (h : visit o p .empty = .ok (g, target)) (budget : Nat) (c : Costs) {d : DP c.F} {t : Table c.F}
    (hs : solve g budget c fuel = .ok (d, t)) (hr : validateRoot g t fuel d = .ok ()) :
    ∃ T : Spec.Tree, T.In t d ∧ T.tables.Perm (List.range g.relations.length) ∧
      T.preds.Perm (List.range g.edges.length) ∧ T.Lowest (edgeDeps g) := by
  have h64 := solve_length hs
  have hed := edges_ok o ho hv hc h h64
  obtain ⟨all, hall⟩ := fromIter_total (l := List.range g.relations.length) fun i hi => by
    have := List.mem_range.1 hi
    omega
  have hfound := solve_ok (g := g) (c := c) (strict := False) (fin := fun _ => True) (threshold := budget)
    (fun h => h.elim) fuel (by decide) hall
  rw [hs] at hfound
  obtain ⟨hgood, hroot⟩ := hfound
  unfold validateRoot at hr
  rw [hall] at hr
  simp only at hr
  split at hr
  · cases hr
  · split at hr
    · cases hr
    · rename_i s hval
      split at hr
      · rename_i hcount
        obtain ⟨T, hT, hu⟩ := checked hgood hed fuel hroot hval
        rw [List.nil_append] at hu
        rw [hu] at hcount
        have hone : ∀ i, i < g.edges.length → T.preds.count i = 1 := by
          intro i hi
          have := List.all_eq_true.1 hcount i (List.mem_range.2 hi)
          simpa using this
        have hlt : ∀ i ∈ T.preds, i < g.edges.length := by
          intro i hi
          obtain ⟨e, he, _⟩ := inside_iff.1 (hT.preds i hi)
          exact (List.getElem?_eq_some_iff.1 he).1
        refine ⟨T, hT.tree, ?_, ?_, hT.lowest ?_⟩
        · refine (List.perm_ext_iff_of_nodup hT.tables.1 List.nodup_range).2 fun i => ?_
          rw [hT.tables.2, (fromIter_ok hall).2]
        · refine List.perm_iff_count.2 fun i => ?_
          by_cases hi : i < g.edges.length
          · rw [hone i hi, List.nodup_range.count, if_pos (List.mem_range.2 hi)]
          · rw [List.count_eq_zero.2 fun h => hi (hlt i h), List.count_eq_zero.2 fun h => hi (List.mem_range.1 h)]
        · intro i hi
          obtain ⟨e, he, _⟩ := inside_iff.1 hi
          exact hone i (List.getElem?_eq_some_iff.1 he).1
      · cases hr

/-- C76: no predicate is put off: the tables of every residual predicate of an edge are among the edge's own, so they
are all there at the join the edge belongs to. -/
theorem C76_no_deferred (o : Options α) (ho : ∀ gs, (o.order gs).Perm gs) {p : Plan α} (hv : Spec.Valid p)
    (hc : Spec.NoClash p) {g : Graph α} {target : List Col} (h : visit o p .empty = .ok (g, target))
    (h64 : g.relations.length ≤ 64) {e : Edge α} (he : e ∈ g.edges) {l r : JoinSet}
    (hj : connects l r e = true) {x : Expr α Col} (hx : x ∈ residual e) :
    isSubset (ofCols x.cols) (l ||| r) = true := by
  have hok := edges_ok o ho hv hc h h64 e he
  rw [isSubset_iff]
  intro i hi
  rw [mem_ofCols] at hi
  · obtain ⟨c, hcx, rfl⟩ := hi
    exact (connects_iff.1 hj).1 _ (hok.cols c (residual_cols hx hcx)).2
  · intro c hcx
    exact (hok.cols c (residual_cols hx hcx)).2.lt

end

/-! ## Names -/

open Verif.Func.Digits in
theorem all_digitChar {ds : List Nat} (h : ∀ d ∈ ds, d < 10) : Spec.All Spec.IsDigit (ds.map digitChar) ds := by
  induction ds with
  | nil => exact .nil
  | cons d ds ih =>
    refine .cons (.inl ⟨by have := h d (by simp); omega, ?_⟩) (ih fun x hx => h x (by simp [hx]))
    have := h d (by simp)
    simp only [digitChar, if_pos this]
    rfl

open Verif.Func.Digits in
theorem parseUsize_digits {n : Nat} (hn : n < 2 ^ 64) : parseUsize ((natDigits 10 n).map digitChar) = some n := by
  obtain ⟨h1, ⟨h2, h3, _⟩, _⟩ := natDigits_spec (r := 10) (by decide) n
  have hr : readDigits 10 ((natDigits 10 n).map digitChar) 0 = some n := by
    rw [readDigits_spec]
    exact ⟨_, all_digitChar h3, h3, by rw [h1]; omega⟩
  have hne : (natDigits 10 n).map digitChar ≠ [] := by simpa using h2
  have hplus : ∀ r, (natDigits 10 n).map digitChar ≠ 43 :: r := by
    intro r hr
    have : (43 : Nat) ∈ (natDigits 10 n).map digitChar := by rw [hr]; simp
    obtain ⟨d, hd, he⟩ := List.mem_map.1 this
    have := h3 d hd
    simp only [digitChar, if_pos this] at he
    omega
  have he : ((natDigits 10 n).map digitChar).isEmpty = false := by
    cases hd : (natDigits 10 n).map digitChar with
    | nil => exact absurd hd hne
    | cons => rfl
  revert hplus hr he
  generalize (natDigits 10 n).map digitChar = t
  intro hr hplus he
  unfold parseUsize
  split
  · rename_i r; exact absurd rfl (hplus r)
  · simp only [he, Bool.false_eq_true, if_false, hr, if_pos hn]

open Verif.Func.Digits in
/-- C76: the names that carry columns through expressions name exactly one column. -/
theorem C76_stable_name_round_trip (rel col : Nat) (hr : rel < 2 ^ 64) (hc : col < 2 ^ 64) :
    parseStable (formatStable rel col) = some (rel, col) := by
  have h3 := (natDigits_spec (r := 10) (by decide) rel).2.1.2.1
  have hdot : ∀ x ∈ (natDigits 10 rel).map digitChar, (x != 46) = true := by
    intro x hx
    obtain ⟨d, hd, rfl⟩ := List.mem_map.1 hx
    have := h3 d hd
    simp only [digitChar, if_pos this, bne_iff_ne, ne_eq]
    omega
  unfold parseStable formatStable
  have e1 : ((natDigits 10 rel).map digitChar ++ 46 :: 67 :: (natDigits 10 col).map digitChar).dropWhile (· != 46) =
      46 :: 67 :: (natDigits 10 col).map digitChar := by
    rw [List.dropWhile_append_of_pos hdot]
    rfl
  have e2 : ((natDigits 10 rel).map digitChar ++ 46 :: 67 :: (natDigits 10 col).map digitChar).takeWhile (· != 46) =
      (natDigits 10 rel).map digitChar := by
    rw [List.takeWhile_append_of_pos hdot]
    simp
  simp only [e1, e2, parseUsize_digits hr, parseUsize_digits hc]

theorem C76_stable_name_injective {r c r' c' : Nat} (hr : r < 2 ^ 64) (hc : c < 2 ^ 64) (hr' : r' < 2 ^ 64)
    (hc' : c' < 2 ^ 64) (h : formatStable r c = formatStable r' c') : r = r' ∧ c = c' := by
  have h1 := C76_stable_name_round_trip r c hr hc
  rw [h, C76_stable_name_round_trip r' c' hr' hc'] at h1
  cases h1
  exact ⟨rfl, rfl⟩

namespace Example

example : parseStable (formatStable 12 305) = some (12, 305) :=
  C76_stable_name_round_trip 12 305 (by decide) (by decide)

-- "R1.C12" and "R11.C2" are different names
example : formatStable 1 12 ≠ formatStable 11 2 := fun h =>
  absurd (C76_stable_name_injective (by decide) (by decide) (by decide) (by decide) h) (by decide)

example : region (o 3) (fun _ => costs 0) p ≠ .error .fuel := C76_search_ends _ _ _

/-- The example estimator is finite as long as the numbers are; a saturating one always is. -/
def sat : Nat → Costs := costsWith (fun a b => min (a * b) 1000) (fun a b => min (a * b) 1000)

theorem finite_sat (s : Nat) : Spec.FiniteEstimates (sat s) (fun x : Nat => x ≤ 1000) where
  leaf i x h := by
    have h : ([5, 7, 1, 2] : List Nat).getD i 3 = (x : Nat) := Except.ok.inj h
    have : ∀ i, ([5, 7, 1, 2] : List Nat).getD i 3 ≤ 1000
      | 0 | 1 | 2 | 3 => by decide
      | n + 4 => by simp
    exact h ▸ this i
  join a b es _ _ := Nat.min_le_right _ _
  cross a b _ _ := Nat.min_le_right _ _
  lt a h := by
    simp only [sat, costsWith, decide_eq_true_eq]
    omega

example {g : Graph Nat} {m : List Col} (h : visit (o 3) p .empty = .ok (g, m)) {d : DP Nat} {t : Table Nat}
    (hs : solve g 3 (sat 1) fuel = .ok (d, t)) : validateRoot g t fuel d = .ok () :=
  C76_check_passes _ (fun _ => .refl _) valid_p noClash_p h 3 (sat 1) _ (finite_sat 1) hs

/-- The number of relations and edges of the example graph and whether the search succeeds on it. -/
def summary : Option (Nat × Nat × Bool) :=
  match visit (o 3) p .empty with
  | .ok (g, _) => some (g.relations.length, g.edges.length, match solve g 3 (sat 1) fuel with
    | .ok _ => true
    | .error _ => false)
  | .error _ => none

example : summary = some (3, 3, true) := by decide +kernel

example {g : Graph Nat} {m : List Col} (h : visit (o 3) p .empty = .ok (g, m)) {d : DP Nat} {t : Table Nat}
    (hs : solve g 3 (sat 1) fuel = .ok (d, t)) : ∃ T : Spec.Tree, T.In t d ∧
      T.tables.Perm (List.range g.relations.length) ∧ T.preds.Perm (List.range g.edges.length) ∧
      T.Lowest (edgeDeps g) :=
  C76_tables_and_predicates_once _ (fun _ => .refl _) valid_p noClash_p h 3 (sat 1) hs
    (C76_check_passes _ (fun _ => .refl _) valid_p noClash_p h 3 (sat 1) _ (finite_sat 1) hs)

end Example

/-- An estimator that is infinite for joins but not for cross joins makes the greedy search pick a cross join where a
predicate connects the inputs; the check notices and the plan stays as it was. -/
theorem C76_infinite_estimates_fail_the_check :
    ∃ (c : Costs) (g : Graph Nat) (m : List Col) (d : DP c.F) (t : Table c.F),
      visit (Example.o 0) Example.p .empty = .ok (g, m) ∧ solve g 0 c fuel = .ok (d, t) ∧
      validateRoot g t fuel d ≠ .ok () := by
  let c : Costs := Example.costsWith (fun _ _ => 10 ^ 9) (· * ·) 0
  cases hv : visit (Example.o 0) Example.p .empty with
  | error e =>
    exfalso
    have : (match visit (Example.o 0) Example.p .empty with | .ok _ => true | .error _ => false) = true := by
      decide +kernel
    rw [hv] at this
    cases this
  | ok gm =>
    obtain ⟨g, m⟩ := gm
    have key : (match visit (Example.o 0) Example.p .empty with
      | .ok (g, _) => (match solve g 0 c fuel with
        | .ok (d, t) => (match validateRoot g t fuel d with | .ok _ => false | .error _ => true)
        | .error _ => false)
      | .error _ => false) = true := by decide +kernel
    rw [hv] at key
    simp only at key
    cases hs : solve g 0 c fuel with
    | error e => rw [hs] at key; cases key
    | ok dt =>
      obtain ⟨d, t⟩ := dt
      rw [hs] at key
      simp only at key
      refine ⟨c, g, m, d, t, rfl, hs, ?_⟩
      intro hok
      rw [hok] at key
      cases key

end Verif.Opt
