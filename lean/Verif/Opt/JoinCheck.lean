import Verif.Opt.JoinTree

/-! # The consistency check of a join tree -/

namespace Verif.Opt.Spec

/-- A join tree: tables at the leaves, numbers of predicates at the joins. -/
inductive Tree where
  | leaf (table : Nat)
  | node (left right : Tree) (preds : List Nat)

def Tree.tables : Tree → List Nat
  | .leaf i => [i]
  | .node l r _ => l.tables ++ r.tables

def Tree.preds : Tree → List Nat
  | .leaf _ => []
  | .node l r es => es ++ (l.preds ++ r.preds)

/-- Every join evaluates exactly the predicates whose tables are all among its inputs' but not all in one input. -/
def Tree.Lowest (deps : Nat → Option (Nat → Prop)) : Tree → Prop
  | .leaf _ => True
  | .node l r es => l.Lowest deps ∧ r.Lowest deps ∧ ∀ i, i ∈ es ↔ ∃ d, deps i = some d ∧
      (∀ x, d x → x ∈ l.tables ∨ x ∈ r.tables) ∧ ¬ (∀ x, d x → x ∈ l.tables) ∧ ¬ (∀ x, d x → x ∈ r.tables)

/-- The tree that a DP table stores for an entry. -/
def Tree.In {F : Type} (t : Table F) : Tree → DP F → Prop
  | .leaf i, d => d.kind = .leaf i
  | .node l r es, d => ∃ ls rs ld rd, d.kind = .join ls rs es ∧ t.get ls = some ld ∧ t.get rs = some rd ∧
      l.In t ld ∧ r.In t rd

end Verif.Opt.Spec

namespace Verif.Opt

set_option linter.unusedSectionVars false

open JoinSet

variable {α : Type}

/-- The tables an edge depends on. -/
def edgeDeps (g : Graph α) (i : Nat) : Option (Nat → Prop) := (g.edges[i]?).map fun e x => Mem x e.joinSet

variable {g : Graph α} {c : Costs} {strict : Prop} {fin : c.F → Prop} {t : Table c.F}

/-- Edge `i` lies inside `S`. -/
def inside (g : Graph α) (S : JoinSet) (i : Nat) : Bool := (g.edges[i]?).any fun e => isSubset e.joinSet S

theorem inside_iff {S : JoinSet} {i : Nat} :
    inside g S i = true ↔ ∃ e, g.edges[i]? = some e ∧ ∀ x, Mem x e.joinSet → Mem x S := by
  unfold inside
  cases h : g.edges[i]? with
  | none => simp
  | some e => simp [isSubset_iff]

theorem mem_connecting {l r : JoinSet} (hd : ∀ i, Mem i l → ¬ Mem i r) {i : Nat} :
    i ∈ connecting g l r ↔ ∃ e, g.edges[i]? = some e ∧ connects l r e = true := by
  unfold connecting
  rw [isDisjoint_iff.2 hd]
  simp only [Bool.not_true, Bool.false_eq_true, if_false, List.mem_map, List.mem_filter]
  constructor
  · rintro ⟨⟨e, j⟩, ⟨h1, h2⟩, rfl⟩
    exact ⟨e, List.mem_zipIdx_iff_getElem?.1 h1, h2⟩
  · rintro ⟨e, h1, h2⟩
    exact ⟨(e, i), ⟨List.mem_zipIdx_iff_getElem?.2 h1, h2⟩, rfl⟩

theorem nodup_connecting (l r : JoinSet) : (connecting g l r).Nodup := by
  unfold connecting
  split
  · exact List.nodup_nil
  · have h : (g.edges.zipIdx.map Prod.snd).Nodup := by
      rw [List.zipIdx_map_snd]
      exact List.nodup_range'
    exact h.sublist (List.filter_sublist.map _)

theorem edgesAt_total {U : List Nat} (h : ∀ i ∈ U, i < g.edges.length) : ∃ es, edgesAt g U = .ok es := by
  induction U with
  | nil => exact ⟨[], rfl⟩
  | cons i U ih =>
    obtain ⟨es, hes⟩ := ih fun j hj => h j (by simp [hj])
    have hi := h i (by simp)
    refine ⟨g.edges[i] :: es, ?_⟩
    simp only [edgesAt, List.getElem?_eq_getElem hi, hes]

theorem edge_two {rels : List (Plan α)} [DecidableEq α] {e : Edge α} (h : EdgeOk rels 0 e) {l r : JoinSet}
    (hd : ∀ i, Mem i l → ¬ Mem i r) : ¬ ((∀ x, Mem x e.joinSet → Mem x l) ∧ ∀ x, Mem x e.joinSet → Mem x r) := by
  rintro ⟨h1, h2⟩
  apply h.leftNe
  rw [eq_zero_iff]
  intro i hi
  have : Mem i e.joinSet := by rw [h.union, mem_or]; exact .inl hi
  exact hd i (h1 i this) (h2 i this)

theorem edge_not_single {rels : List (Plan α)} [DecidableEq α] {e : Edge α} (h : EdgeOk rels 0 e) {S : JoinSet}
    {id : Nat} (hS : ∀ j, Mem j S ↔ j = id) : ¬ ∀ x, Mem x e.joinSet → Mem x S := by
  intro h1
  have hl : ∃ i, Mem i e.left := Classical.byContradiction fun hno =>
    h.leftNe (eq_zero_iff.2 fun i hi => hno ⟨i, hi⟩)
  have hr : ∃ i, Mem i e.right := Classical.byContradiction fun hno =>
    h.rightNe (eq_zero_iff.2 fun i hi => hno ⟨i, hi⟩)
  obtain ⟨i, hi⟩ := hl
  obtain ⟨j, hj⟩ := hr
  have e1 := (hS i).1 (h1 i (by rw [h.union, mem_or]; exact .inl hi))
  have e2 := (hS j).1 (h1 j (by rw [h.union, mem_or]; exact .inr hj))
  exact h.disj i hi (by rw [e1, ← e2]; exact hj)

theorem connects_iff {l r : JoinSet} {e : Edge α} : connects l r e = true ↔
    (∀ x, Mem x e.joinSet → Mem x (l ||| r)) ∧ ¬ (∀ x, Mem x e.joinSet → Mem x l) ∧
      ¬ ∀ x, Mem x e.joinSet → Mem x r := by
  unfold connects
  rw [Bool.and_eq_true, Bool.and_eq_true, Bool.not_eq_true', Bool.not_eq_true', isSubset_iff, Bool.eq_false_iff,
    Bool.eq_false_iff, ne_eq, ne_eq, isSubset_iff, isSubset_iff]

variable [DecidableEq α]

theorem nonempty_of_ne {S : JoinSet} (h : S ≠ 0#64) : ∃ i, Mem i S :=
  Classical.byContradiction fun hno => h (eq_zero_iff.2 fun i hi => hno ⟨i, hi⟩)

/-- The check passes for every entry of a good table with complete lists of edges. -/
theorem validate_ok (hst : strict) (ht : Good g c strict fin t) (hed : ∀ e ∈ g.edges, EdgeOk g.relations 0 e) (k : Nat)
    {S : JoinSet} {d : DP c.F} (hS : t.get S = some d) (hk : S.cardinality ≤ k) (s : Seen)
    (hvis : ∀ V ∈ s.visited, ¬ ∀ i, Mem i V → Mem i S) :
    ∃ s' U, validate g t k d s = .ok s' ∧ s'.uses = s.uses ++ U ∧
      (∀ i, U.count i = if inside g S i then 1 else 0) ∧
      ∀ V ∈ s'.visited, V ∈ s.visited ∨ (V ≠ 0#64 ∧ ∀ i, Mem i V → Mem i S) := by
  induction k generalizing S d s with
  | zero =>
    exfalso
    obtain ⟨i, hi⟩ := nonempty_of_ne (ht S d hS).2.1
    have : i ∈ S.elems := mem_elems.2 hi
    unfold JoinSet.cardinality at hk
    have := List.length_pos_of_mem this
    omega
  | succ k ih =>
    obtain ⟨e1, e2, e3, _, e5⟩ := ht S d hS
    have hnv : d.set ∉ s.visited := by
      rw [e1]
      exact fun h => hvis S h fun _ hi => hi
    simp only [validate]
    rw [if_neg hnv]
    cases hkind : d.kind with
    | leaf id =>
      rw [hkind] at e5
      simp only at e5 ⊢
      have hid : Mem id S := (e5 id).2 rfl
      have hsing : ∃ x, JoinSet.singleton id = .ok x := by
        unfold JoinSet.singleton
        rw [if_neg (by have := hid.lt; omega)]
        exact ⟨_, rfl⟩
      obtain ⟨x, hx⟩ := hsing
      have hxS : x = S := JoinSet.ext fun j => by rw [(singleton_ok hx).2, e5]
      have hlt := e3 id hid
      have hrel : (g.relations[id]?).isNone = false := by
        rw [List.getElem?_eq_getElem hlt]; rfl
      simp only [hx, e1, hxS, hrel, ne_eq, not_true_eq_false, if_false, Bool.false_eq_true]
      refine ⟨_, [], rfl, by simp, ?_, ?_⟩
      · intro i
        have : inside g S i = false := by
          rw [Bool.eq_false_iff]
          intro h
          obtain ⟨e, he, hsub⟩ := inside_iff.1 h
          exact edge_not_single (hed e (List.mem_of_getElem? he)) e5 hsub
        simp [this]
      · intro V hV
        rcases List.mem_cons.1 hV with rfl | hV
        · exact .inr ⟨e2, fun _ h => h⟩
        · exact .inl hV
    | join l r us =>
      rw [hkind] at e5
      simp only at e5 ⊢
      obtain ⟨a1, a2, a3, a4, a5⟩ := e5
      obtain ⟨ld, hld⟩ := Option.isSome_iff_exists.1 a3
      obtain ⟨rd, hrd⟩ := Option.isSome_iff_exists.1 a4
      obtain ⟨_, ln, _, _⟩ := ht l ld hld
      obtain ⟨_, rn, _, _⟩ := ht r rd hrd
      obtain ⟨il, hil⟩ := nonempty_of_ne ln
      obtain ⟨ir, hir⟩ := nonempty_of_ne rn
      have hus := a5 hst
      have hltU : ∀ i ∈ us, i < g.edges.length := by
        intro i hi
        rw [hus, mem_connecting a2] at hi
        obtain ⟨e, he, _⟩ := hi
        exact (List.getElem?_eq_some_iff.1 he).1
      obtain ⟨edges, hedges⟩ := edgesAt_total hltU
      have hcheck : (edges.all fun e => isSubset e.joinSet d.set && !isSubset e.joinSet l && !isSubset e.joinSet r) =
          true := by
        rw [List.all_eq_true]
        intro e he
        obtain ⟨i, hi, hie⟩ := (edgesAt_mem hedges e).1 he
        rw [hus, mem_connecting a2] at hi
        obtain ⟨e', he', hc'⟩ := hi
        rw [hie] at he'
        cases he'
        unfold connects at hc'
        rw [e1, ← a1, Bool.and_assoc]
        exact hc'
      have hSl : ∀ i, Mem i l → Mem i S := fun i hi => a1 ▸ mem_or.2 (.inl hi)
      have hSr : ∀ i, Mem i r → Mem i S := fun i hi => a1 ▸ mem_or.2 (.inr hi)
      have cl : l.cardinality < S.cardinality := card_lt_of_ssubset hSl (hSr ir hir) fun h => a2 ir h hir
      have cr : r.cardinality < S.cardinality := card_lt_of_ssubset hSr (hSl il hil) fun h => a2 il hil h
      rw [isDisjoint_iff.2 a2]
      simp only [Bool.not_true, Bool.false_eq_true, if_false, a1, e1, ne_eq, not_true_eq_false, hedges]
      rw [e1] at hcheck
      rw [if_pos hcheck]
      simp only [hld, hrd]
      obtain ⟨s₁, U₁, v1, v2, v3, v4⟩ := ih hld (by omega)
        { uses := s.uses ++ us, visited := S :: s.visited } (by
          intro V hV h
          rcases List.mem_cons.1 hV with rfl | hV
          · exact a2 ir (h ir (hSr ir hir)) hir
          · exact hvis V hV fun i hi => hSl i (h i hi))
      rw [v1]
      simp only
      obtain ⟨s₂, U₂, w1, w2, w3, w4⟩ := ih hrd (by omega) s₁ (by
          intro V hV h
          rcases v4 V hV with hV | ⟨hV, hV'⟩
          · rcases List.mem_cons.1 hV with rfl | hV
            · exact a2 il hil (h il (hSl il hil))
            · exact hvis V hV fun i hi => hSr i (h i hi)
          · obtain ⟨i, hi⟩ := nonempty_of_ne hV
            exact a2 i (hV' i hi) (h i hi))
      refine ⟨s₂, us ++ (U₁ ++ U₂), w1, ?_, ?_, ?_⟩
      · rw [w2, v2]; simp [List.append_assoc]
      · intro i
        rw [List.count_append, List.count_append, v3, w3]
        have hcnt : us.count i = if (g.edges[i]?).any (connects l r) then 1 else 0 := by
          rw [hus]
          have hnd := nodup_connecting (g := g) l r
          cases hei : g.edges[i]? with
          | none =>
            have : i ∉ connecting g l r := by
              rw [mem_connecting a2]
              rintro ⟨e, he, _⟩
              rw [hei] at he; cases he
            simp [List.count_eq_zero.2 this]
          | some e =>
            by_cases hce : connects l r e = true
            · have : i ∈ connecting g l r := (mem_connecting a2).2 ⟨e, hei, hce⟩
              rw [hnd.count, if_pos this]
              simp [hce]
            · have : i ∉ connecting g l r := by
                rw [mem_connecting a2]
                rintro ⟨e', he, h⟩
                rw [hei] at he; cases he
                exact hce h
              simp [List.count_eq_zero.2 this, hce]
        rw [hcnt]
        cases hei : g.edges[i]? with
        | none => simp [inside, hei]
        | some e =>
          have htwo := edge_two (hed e (List.mem_of_getElem? hei)) a2
          simp only [inside, hei, Option.any_some]
          by_cases hl : isSubset e.joinSet l = true
          · have hl' := isSubset_iff.1 hl
            have hr : isSubset e.joinSet r = false := by
              rw [Bool.eq_false_iff]
              exact fun h => htwo ⟨hl', isSubset_iff.1 h⟩
            have hS' : isSubset e.joinSet S = true := isSubset_iff.2 fun x hx => hSl x (hl' x hx)
            simp [connects, hl, hr, hS']
          · rw [Bool.not_eq_true] at hl
            by_cases hr : isSubset e.joinSet r = true
            · have hr' := isSubset_iff.1 hr
              have hS' : isSubset e.joinSet S = true := isSubset_iff.2 fun x hx => hSr x (hr' x hx)
              simp [connects, hl, hr, hS']
            · rw [Bool.not_eq_true] at hr
              simp [connects, hl, hr, a1]
      · intro V hV
        rcases w4 V hV with hV | ⟨hV, hV'⟩
        · rcases v4 V hV with hV | ⟨hV, hV'⟩
          · rcases List.mem_cons.1 hV with rfl | hV
            · exact .inr ⟨e2, fun _ h => h⟩
            · exact .inl hV
          · exact .inr ⟨hV, fun i hi => hSl i (hV' i hi)⟩
        · exact .inr ⟨hV, fun i hi => hSr i (hV' i hi)⟩

/-- A checked tree: its tables and its predicates. -/
structure Checked (g : Graph α) (t : Table c.F) (S : JoinSet) (d : DP c.F) (T : Spec.Tree) : Prop where
  tree : T.In t d
  tables : T.tables.Nodup ∧ ∀ i, i ∈ T.tables ↔ Mem i S
  preds : ∀ i ∈ T.preds, inside g S i = true
  lowest : (∀ i, inside g S i = true → T.preds.count i = 1) → T.Lowest (edgeDeps g)

theorem checked (ht : Good g c strict fin t) (hed : ∀ e ∈ g.edges, EdgeOk g.relations 0 e) (k : Nat)
    {S : JoinSet} {d : DP c.F} (hS : t.get S = some d) {s s' : Seen} (hv : validate g t k d s = .ok s') :
    ∃ T : Spec.Tree, Checked g t S d T ∧ s'.uses = s.uses ++ T.preds := by
  induction k generalizing S d s s' with
  | zero => cases hv
  | succ k ih =>
    obtain ⟨e1, e2, e3, _, e5⟩ := ht S d hS
    simp only [validate] at hv
    split at hv
    · cases hv
    · cases hkind : d.kind with
      | leaf id =>
        rw [hkind] at e5
        simp only [hkind] at hv
        split at hv
        · cases hv
        · split at hv
          · cases hv
          · split at hv
            · cases hv
            · cases hv
              refine ⟨.leaf id, ⟨hkind, ⟨by simp [Spec.Tree.tables], fun i => ?_⟩, by simp [Spec.Tree.preds],
                fun _ => trivial⟩, by simp [Spec.Tree.preds]⟩
              simp [Spec.Tree.tables, e5]
      | join l r us =>
        rw [hkind] at e5
        simp only [hkind] at hv
        obtain ⟨a1, a2, _, _, _⟩ := e5
        split at hv
        · cases hv
        · split at hv
          · cases hv
          · split at hv
            · cases hv
            · rename_i edges hedges
              split at hv
              · rename_i hconn
                split at hv
                · rename_i ld rd hld hrd
                  split at hv
                  · cases hv
                  · rename_i s₁ hv1
                    obtain ⟨A, hA, uA⟩ := ih hld hv1
                    obtain ⟨B, hB, uB⟩ := ih hrd hv
                    have hSl : ∀ i, Mem i l → Mem i S := fun i hi => a1 ▸ mem_or.2 (.inl hi)
                    have hSr : ∀ i, Mem i r → Mem i S := fun i hi => a1 ▸ mem_or.2 (.inr hi)
                    have hus : ∀ i ∈ us, ∃ e, g.edges[i]? = some e ∧ connects l r e = true := by
                      intro i hi
                      have hlt := edgesAt_lt hedges hi
                      have hei := List.getElem?_eq_getElem hlt
                      have := List.all_eq_true.1 hconn _ ((edgesAt_mem hedges _).2 ⟨i, hi, hei⟩)
                      refine ⟨_, hei, ?_⟩
                      unfold connects
                      rw [a1, ← e1, ← Bool.and_assoc]
                      exact this
                    refine ⟨.node A B us, ⟨⟨l, r, ld, rd, hkind, hld, hrd, hA.tree, hB.tree⟩, ⟨?_, ?_⟩, ?_, ?_⟩, ?_⟩
                    · simp only [Spec.Tree.tables]
                      refine List.nodup_append.2 ⟨hA.tables.1, hB.tables.1, ?_⟩
                      intro i hi j hj hij
                      subst hij
                      exact a2 i ((hA.tables.2 i).1 hi) ((hB.tables.2 i).1 hj)
                    · intro i
                      simp only [Spec.Tree.tables, List.mem_append]
                      rw [hA.tables.2, hB.tables.2, ← a1, mem_or]
                    · intro i hi
                      simp only [Spec.Tree.preds, List.mem_append] at hi
                      rcases hi with hi | hi | hi
                      · obtain ⟨e, he, hce⟩ := hus i hi
                        exact inside_iff.2 ⟨e, he, a1 ▸ (connects_iff.1 hce).1⟩
                      · obtain ⟨e, he, hx⟩ := inside_iff.1 (hA.preds i hi)
                        exact inside_iff.2 ⟨e, he, fun x h => hSl x (hx x h)⟩
                      · obtain ⟨e, he, hx⟩ := inside_iff.1 (hB.preds i hi)
                        exact inside_iff.2 ⟨e, he, fun x h => hSr x (hx x h)⟩
                    · intro hcount
                      simp only [Spec.Tree.preds, List.count_append] at hcount
                      have notU : ∀ i e, g.edges[i]? = some e → connects l r e ≠ true → us.count i = 0 := by
                        intro i e he hne
                        rw [List.count_eq_zero]
                        intro hi
                        obtain ⟨e', he', hx⟩ := hus i hi
                        rw [he] at he'; cases he'
                        exact hne hx
                      have notA : ∀ i e, g.edges[i]? = some e → ¬ (∀ x, Mem x e.joinSet → Mem x l) →
                          A.preds.count i = 0 := by
                        intro i e he hne
                        rw [List.count_eq_zero]
                        intro hi
                        obtain ⟨e', he', hx⟩ := inside_iff.1 (hA.preds i hi)
                        rw [he] at he'; cases he'
                        exact hne hx
                      have notB : ∀ i e, g.edges[i]? = some e → ¬ (∀ x, Mem x e.joinSet → Mem x r) →
                          B.preds.count i = 0 := by
                        intro i e he hne
                        rw [List.count_eq_zero]
                        intro hi
                        obtain ⟨e', he', hx⟩ := inside_iff.1 (hB.preds i hi)
                        rw [he] at he'; cases he'
                        exact hne hx
                      refine ⟨hA.lowest ?_, hB.lowest ?_, ?_⟩
                      · intro i hi
                        obtain ⟨e, he, hx⟩ := inside_iff.1 hi
                        have h1 := hcount i (inside_iff.2 ⟨e, he, fun x h => hSl x (hx x h)⟩)
                        have h2 := notU i e he fun h => (connects_iff.1 h).2.1 hx
                        have h3 := notB i e he fun h => edge_two (hed e (List.mem_of_getElem? he)) a2 ⟨hx, h⟩
                        omega
                      · intro i hi
                        obtain ⟨e, he, hx⟩ := inside_iff.1 hi
                        have h1 := hcount i (inside_iff.2 ⟨e, he, fun x h => hSr x (hx x h)⟩)
                        have h2 := notU i e he fun h => (connects_iff.1 h).2.2 hx
                        have h3 := notA i e he fun h => edge_two (hed e (List.mem_of_getElem? he)) a2 ⟨h, hx⟩
                        omega
                      · intro i
                        constructor
                        · intro hi
                          obtain ⟨e, he, hx⟩ := hus i hi
                          obtain ⟨c1, c2, c3⟩ := connects_iff.1 hx
                          refine ⟨_, by rw [edgeDeps, he]; rfl, ?_, ?_, ?_⟩
                          · intro x hm
                            rw [hA.tables.2, hB.tables.2, ← mem_or]
                            exact c1 x hm
                          · intro h
                            exact c2 fun x hm => (hA.tables.2 x).1 (h x hm)
                          · intro h
                            exact c3 fun x hm => (hB.tables.2 x).1 (h x hm)
                        · rintro ⟨dp, hdp, d1, d2, d3⟩
                          unfold edgeDeps at hdp
                          cases hei : g.edges[i]? with
                          | none => rw [hei] at hdp; cases hdp
                          | some e =>
                            rw [hei] at hdp
                            cases hdp
                            have n2 : ¬ ∀ x, Mem x e.joinSet → Mem x l := fun h => d2 fun x hm => (hA.tables.2 x).2 (h x hm)
                            have n3 : ¬ ∀ x, Mem x e.joinSet → Mem x r := fun h => d3 fun x hm => (hB.tables.2 x).2 (h x hm)
                            have h1 := hcount i (inside_iff.2 ⟨e, hei, fun x hm => by
                              have := d1 x hm
                              rw [hA.tables.2, hB.tables.2] at this
                              exact this.elim (hSl x) (hSr x)⟩)
                            have h2 := notA i e hei n2
                            have h3 := notB i e hei n3
                            exact List.count_pos_iff.1 (by omega)
                    · rw [uB, uA]
                      simp [Spec.Tree.preds, List.append_assoc]
                · cases hv
              · cases hv

/-- Rebuilding does not run out of fuel. -/
theorem rebuild_fuel (ht : Good g c strict fin t) (k : Nat) {S : JoinSet} {d : DP c.F} (hS : t.get S = some d)
    (hk : S.cardinality ≤ k) (req : List Col) : rebuild g t k d req ≠ .error .fuel := by
  induction k generalizing S d req with
  | zero =>
    exfalso
    obtain ⟨i, hi⟩ := nonempty_of_ne (ht S d hS).2.1
    have : i ∈ S.elems := mem_elems.2 hi
    unfold JoinSet.cardinality at hk
    have := List.length_pos_of_mem this
    omega
  | succ k ih =>
    obtain ⟨e1, e2, e3, _, e5⟩ := ht S d hS
    simp only [rebuild]
    cases hkind : d.kind with
    | leaf id =>
      simp only
      split <;> simp
    | join l r us =>
      rw [hkind] at e5
      simp only at e5 ⊢
      obtain ⟨a1, a2, a3, a4, a5⟩ := e5
      obtain ⟨ld, hld⟩ := Option.isSome_iff_exists.1 a3
      obtain ⟨rd, hrd⟩ := Option.isSome_iff_exists.1 a4
      obtain ⟨il, hil⟩ := nonempty_of_ne (ht l ld hld).2.1
      obtain ⟨ir, hir⟩ := nonempty_of_ne (ht r rd hrd).2.1
      have hSl : ∀ i, Mem i l → Mem i S := fun i hi => a1 ▸ mem_or.2 (.inl hi)
      have hSr : ∀ i, Mem i r → Mem i S := fun i hi => a1 ▸ mem_or.2 (.inr hi)
      have cl : l.cardinality < S.cardinality := card_lt_of_ssubset hSl (hSr ir hir) fun h => a2 ir h hir
      have cr : r.cardinality < S.cardinality := card_lt_of_ssubset hSr (hSl il hil) fun h => a2 il hil h
      rw [hld, hrd]
      have nullErr : ∀ (es : List (Edge α)) (b : Option Bool) (e : Err), nullEqOf es b = .error e → e = .internal := by
        intro es
        induction es with
        | nil => intro b e h; cases h
        | cons x es ih =>
          intro b e h
          cases b with
          | none => exact ih _ _ h
          | some b =>
            simp only [nullEqOf] at h
            split at h
            · exact ih _ _ h
            · cases h; rfl
      split
      · rename_i ld' rd' edges h1 h2 _
        cases h1
        cases h2
        split
        · rename_i e he
          rw [nullErr _ _ _ he]
          simp
        · split
          · rename_i e he
            intro h
            cases h
            exact ih hld (by omega) _ he
          · split
            · rename_i e he
              intro h
              cases h
              exact ih hrd (by omega) _ he
            · split <;> simp
      · simp

theorem validate_fuel (ht : Good g c strict fin t) (k : Nat) {S : JoinSet} {d : DP c.F} (hS : t.get S = some d)
    (hk : S.cardinality ≤ k) (s : Seen) : validate g t k d s ≠ .error .fuel := by
  induction k generalizing S d s with
  | zero =>
    exfalso
    obtain ⟨i, hi⟩ := nonempty_of_ne (ht S d hS).2.1
    have : i ∈ S.elems := mem_elems.2 hi
    unfold JoinSet.cardinality at hk
    have := List.length_pos_of_mem this
    omega
  | succ k ih =>
    obtain ⟨e1, e2, e3, _, e5⟩ := ht S d hS
    simp only [validate]
    split
    · simp
    · cases hkind : d.kind with
      | leaf id =>
        simp only
        split
        · rename_i e he
          rw [singleton_err he]
          simp
        · split
          · simp
          · split <;> simp
      | join l r us =>
        rw [hkind] at e5
        simp only at e5 ⊢
        obtain ⟨a1, a2, a3, a4, a5⟩ := e5
        obtain ⟨ld, hld⟩ := Option.isSome_iff_exists.1 a3
        obtain ⟨rd, hrd⟩ := Option.isSome_iff_exists.1 a4
        obtain ⟨il, hil⟩ := nonempty_of_ne (ht l ld hld).2.1
        obtain ⟨ir, hir⟩ := nonempty_of_ne (ht r rd hrd).2.1
        have hSl : ∀ i, Mem i l → Mem i S := fun i hi => a1 ▸ mem_or.2 (.inl hi)
        have hSr : ∀ i, Mem i r → Mem i S := fun i hi => a1 ▸ mem_or.2 (.inr hi)
        have cl : l.cardinality < S.cardinality := card_lt_of_ssubset hSl (hSr ir hir) fun h => a2 ir h hir
        have cr : r.cardinality < S.cardinality := card_lt_of_ssubset hSr (hSl il hil) fun h => a2 il hil h
        have edgesErr : ∀ (us : List Nat) (e : Err), edgesAt g us = .error e → e = .internal := by
          intro us e h
          cases us with
          | nil => cases h
          | cons i us =>
            simp only [edgesAt] at h
            split at h
            · cases h
            · cases h; rfl
        split
        · simp
        · split
          · simp
          · split
            · rename_i e he
              rw [edgesErr _ _ he]
              simp
            · split
              · rw [hld, hrd]
                simp only
                split
                · rename_i e he
                  intro h
                  cases h
                  exact ih hld (by omega) _ he
                · exact ih hrd (by omega) _
              · simp

end Verif.Opt
