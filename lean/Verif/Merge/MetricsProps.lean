import Verif.Merge.Metrics
import Verif.Merge.MorProps
import Verif.Merge.Sample

/-! # C82: the history metrics of a copy-on-write MERGE -/

set_option linter.unusedSectionVars false

namespace Verif.Merge

open Verif.Opt (Row and3 eq3)

variable {α : Type} [DecidableEq α]

/-- How many rows carry an operation. -/
def cnt (op : Op) (rows : List (PRow α)) : Nat := rows.countP (fun p => p.op == op)

theorem cnt_cons (op : Op) (p : PRow α) (rows : List (PRow α)) :
    cnt op (p :: rows) = cnt op rows + if p.op = op then 1 else 0 := by
  simp only [cnt, List.countP_cons, beq_iff_eq]

theorem cnt_append (op : Op) (a b : List (PRow α)) : cnt op (a ++ b) = cnt op a + cnt op b := by
  simp [cnt, List.countP_append]

/-- The sum of the source metrics. -/
def metricSum (rows : List (PRow α)) : Nat :=
  (rows.map (fun p => if p.op = .sourceMetric then p.metric.getD 1 else 0)).sum

theorem metricSum_zero : ∀ {L : List (PRow α)}, (∀ p ∈ L, p.op ≠ .sourceMetric) → metricSum L = 0
  | [], _ => rfl
  | p :: L, h => by
    have ih := metricSum_zero (fun q hq => h q (by simp [hq]) : ∀ q ∈ L, q.op ≠ .sourceMetric)
    rw [metricSum] at ih ⊢
    rw [List.map_cons, List.sum_cons, if_neg (h p (by simp)), ih]

theorem fold_counts : ∀ (rows : List (PRow α)) (c : Counters),
    (rows.foldl (fun c p => c.add p.op p.metric) c).copied = c.copied + cnt .copy rows ∧
    (rows.foldl (fun c p => c.add p.op p.metric) c).inserted = c.inserted + cnt .insert rows ∧
    (rows.foldl (fun c p => c.add p.op p.metric) c).updated =
      c.updated + cnt .update rows + cnt .matchedUpdate rows + cnt .bySourceUpdate rows ∧
    (rows.foldl (fun c p => c.add p.op p.metric) c).deleted =
      c.deleted + cnt .delete rows + cnt .matchedDelete rows + cnt .bySourceDelete rows ∧
    (rows.foldl (fun c p => c.add p.op p.metric) c).noop = c.noop + cnt .noop rows ∧
    (rows.foldl (fun c p => c.add p.op p.metric) c).matchedUpdated = c.matchedUpdated + cnt .matchedUpdate rows ∧
    (rows.foldl (fun c p => c.add p.op p.metric) c).bySourceUpdated = c.bySourceUpdated + cnt .bySourceUpdate rows ∧
    (rows.foldl (fun c p => c.add p.op p.metric) c).matchedDeleted = c.matchedDeleted + cnt .matchedDelete rows ∧
    (rows.foldl (fun c p => c.add p.op p.metric) c).bySourceDeleted = c.bySourceDeleted + cnt .bySourceDelete rows ∧
    (rows.foldl (fun c p => c.add p.op p.metric) c).sourceMetric = c.sourceMetric + metricSum rows ∧
    (rows.foldl (fun c p => c.add p.op p.metric) c).usesMetric = c.usesMetric
  | [], c => by simp [cnt, metricSum]
  | p :: rows, c => by
    obtain ⟨h1, h2, h3, h4, h5, h6, h7, h8, h9, h10, h11⟩ := fold_counts rows (c.add p.op p.metric)
    rw [List.foldl_cons]
    have hms : metricSum (p :: rows) = (if p.op = .sourceMetric then p.metric.getD 1 else 0) + metricSum rows := by
      simp [metricSum]
    rw [h1, h2, h3, h4, h5, h6, h7, h8, h9, h10, h11, hms]
    simp only [cnt_cons]
    clear h1 h2 h3 h4 h5 h6 h7 h8 h9 h10 h11 hms
    cases p.op <;> refine ⟨?_, ?_, ?_, ?_, ?_, ?_, ?_, ?_, ?_, ?_, ?_⟩ <;> simp [Counters.add] <;> omega

/-- Whether a fate is an update. -/
def Spec.Fate.isUpdate : Spec.Fate α → Bool
  | .update _ => true
  | _ => false

/-- Whether a fate is a delete. -/
def Spec.Fate.isDelete : Spec.Fate α → Bool
  | .delete => true
  | _ => false

/-- Whether a fate leaves the row alone. -/
def Spec.Fate.isKeep : Spec.Fate α → Bool
  | .keep => true
  | _ => false

theorem isKeep_iff (f : Spec.Fate α) : f.isKeep = true ↔ f = .keep := by
  cases f <;> simp [Spec.Fate.isKeep]

/-- The operation of the single joined row of a target row. -/
def opOf (o : Options α) (S : List (Row α)) (t : Row α) : Op :=
  match (Spec.matchesOf o S t).isEmpty, Spec.fate o S t with
  | _, .keep => .copy
  | false, .delete => .matchedDelete
  | false, .update _ => .matchedUpdate
  | true, .delete => .bySourceDelete
  | true, .update _ => .bySourceUpdate

theorem jsOf_op {o : Options α} {S : List (Row α)} {t : TRow α × Nat}
    (h1 : (Spec.matchesOf o S t.1.vals).length ≤ 1) :
    (jsOf o S t).map (fun j => (outRow o j).op) = [opOf o S t.1.vals] := by
  rw [jsOf, opOf, Spec.fate]
  cases hm : Spec.matchesOf o S t.1.vals with
  | nil =>
    have : (outRow o ⟨some t, none⟩).op = _ := projectOp_bySource o t
    simp only [List.map_cons, List.map_nil, this, List.isEmpty_nil]
    rw [bySourceOps_fate o t.1.vals]
    cases Spec.bySourceFate o t.1.vals (Spec.pick (fun p => p t.1.vals) o.bySource) <;> rfl
  | cons s l =>
    rw [hm] at h1
    have : l = [] := by
      cases l with
      | nil => rfl
      | cons _ _ => simp at h1
    subst this
    have : (outRow o ⟨some t, some s⟩).op = _ := projectOp_matched o t s
    simp only [List.map_cons, List.map_nil, this, List.isEmpty_cons]
    rw [matchedOps_fate o t.1.vals s]
    cases Spec.matchedFate o t.1.vals s (Spec.pick (fun p => p t.1.vals s) o.matched) <;> rfl

theorem cnt_of_ops (op : Op) (rows : List (PRow α)) : cnt op rows = (rows.map (·.op)).count op := by
  rw [cnt, List.count, List.countP_map]
  rfl

/-- The operations of the rewritten rows. -/
theorem ops_rewritten {o : Options α} {T : List (TRow α)} {S : List (Row α)} (hs : Spec.Single o T S) (l : List Nat) :
    (((T.zipIdx.filter (fun t => l.contains t.1.file)).flatMap (jsOf o S)).map (outRow o)).map (·.op) =
      (T.filter (fun t => l.contains t.file)).map (fun t => opOf o S t.vals) := by
  rw [List.map_map, List.map_flatMap]
  have : (T.zipIdx.filter (fun t => l.contains t.1.file)).flatMap
      (fun t => (jsOf o S t).map ((fun p : PRow α => p.op) ∘ outRow o)) =
      (T.zipIdx.filter (fun t => l.contains t.1.file)).flatMap (fun t => [opOf o S t.1.vals]) := by
    apply flatMap_congr'
    intro t ht
    exact jsOf_op (hs t.1 (List.fst_mem_of_mem_zipIdx (List.mem_filter.1 ht).1))
  rw [this, zipIdx_filter_flatMap (fun t : TRow α => l.contains t.file) (fun t => [opOf o S t.vals])]
  generalize T.filter (fun t => l.contains t.file) = X
  induction X with
  | nil => rfl
  | cons x X ih => rw [List.flatMap_cons, ih]; rfl

theorem count_filter_map {op : Op} {p : TRow α → Bool} {f : TRow α → Op} : ∀ T : List (TRow α),
    (∀ t ∈ T, f t = op → p t = true) →
    ((T.filter p).map f).count op = T.countP (fun t => f t == op)
  | [], _ => rfl
  | t :: T, h => by
    have ih := count_filter_map (op := op) T (fun x hx => h x (by simp [hx]))
    rw [List.filter_cons, List.countP_cons]
    cases hp : p t with
    | true =>
      simp only [if_true, List.map_cons, List.count_cons, ih]
    | false =>
      have : (f t == op) = false := by
        cases hf : (f t == op) with
        | false => rfl
        | true =>
          have := h t (by simp) (by simpa using hf)
          rw [hp] at this
          exact nomatch this
      simp only [Bool.false_eq_true, if_false, this, ih, Nat.add_zero]

/-- The numbers of rows by operation, in the input of the writer of the general plan. -/
theorem general_counts {o : Options α} (hv : Spec.Valid o) {unique : Bool} {T : List (TRow α)} {S : List (Row α)}
    (hs : Spec.Single o T S) (hi : insertOnly o = false) {rows : List (PRow α)}
    (h : cowInput o (needsCheck o unique) T S S S = .ok rows) :
    ∃ l : List Nat, (∀ f, f ∈ l ↔ ∃ t ∈ T, t.file = f ∧ Spec.fate o S t.vals ≠ .keep) ∧
      rows.map (·.op) = (((Spec.unmatched o T S).filter
        (fun s => (Spec.pick (fun p => p s) o.inserts).isSome)).map (fun _ => Op.insert) ++ [Op.sourceMetric]) ++
        (T.filter (fun t => l.contains t.file)).map (fun t => opOf o S t.vals) ∧
      metricSum rows = S.length := by
  rw [cowInput, hi] at h
  simp only [Bool.false_eq_true, if_false] at h
  cases hw : writePlan o (needsCheck o unique) T S with
  | error e => rw [hw] at h; exact nomatch h
  | ok e =>
    cases ht : touchedPlan o (needsCheck o unique) T S with
    | error e => rw [hw, ht] at h; exact nomatch h
    | ok l =>
      rw [hw, ht] at h
      cases h
      obtain ⟨rfl, _, _⟩ := writePlan_ok hv (fun _ => hs) hw
      refine ⟨l, (touchedPlan_ok (fun _ => hs) ht).2, ?_, ?_⟩
      · rw [joinFiles_eq (touchedPlan_nodup ht), expanded_inserts, expanded_files, List.map_append, ops_rewritten hs,
          List.map_append, List.map_map]
        congr 2
      · rw [joinFiles_eq (touchedPlan_nodup ht), expanded_inserts, expanded_files]
        simp only [metricSum, List.map_append, List.sum_append]
        have hz : ∀ L : List (PRow α), (∀ p ∈ L, p.op ≠ .sourceMetric) →
            (L.map (fun p => if p.op = .sourceMetric then p.metric.getD 1 else 0)).sum = 0 := fun L hL => metricSum_zero hL
        rw [hz _ (fun p hp => by
          obtain ⟨s, _, rfl⟩ := List.mem_map.1 hp
          have : (outRow o ⟨none, some s⟩).op = .insert := projectOp_insert o (some s)
          rw [this]
          simp)]
        rw [hz (((T.zipIdx.filter (fun t => l.contains t.1.file)).flatMap (jsOf o S)).map (outRow o)) (fun p hp => by
          have : p.op ∈ (((T.zipIdx.filter (fun t => l.contains t.1.file)).flatMap (jsOf o S)).map (outRow o)).map
              (·.op) := List.mem_map.2 ⟨p, hp, rfl⟩
          rw [ops_rewritten hs] at this
          obtain ⟨t, _, hop⟩ := List.mem_map.1 this
          rw [← hop, opOf]
          split <;> simp)]
        simp [metricRow]

theorem count_inserts (o : Options α) (l : List (Row α)) :
    (l.filter (fun s => (Spec.pick (fun p => p s) o.inserts).isSome)).length =
      (l.filterMap (Spec.inserted o)).length := by
  induction l with
  | nil => rfl
  | cons s l ih =>
    rw [List.filter_cons, List.filterMap_cons, Spec.inserted]
    cases Spec.pick (fun p => p s) o.inserts <;> simp [ih]

theorem count_map_const {β : Type} (a b : Op) (l : List β) :
    (l.map (fun _ => a)).count b = if a = b then l.length else 0 := by
  induction l with
  | nil => simp
  | cons x l ih =>
    rw [List.map_cons, List.count_cons, ih]
    by_cases h : a = b <;> simp [h]

theorem opOf_touched {o : Options α} {T : List (TRow α)} {S : List (Row α)} {l : List Nat}
    (hl : ∀ f, f ∈ l ↔ ∃ t ∈ T, t.file = f ∧ Spec.fate o S t.vals ≠ .keep) {op : Op} (hop : op ≠ .copy)
    {t : TRow α} (ht : t ∈ T) (h : opOf o S t.vals = op) : l.contains t.file = true := by
  rw [List.contains_iff_mem, hl]
  refine ⟨t, ht, rfl, fun hk => ?_⟩
  rw [opOf, hk] at h
  exact hop h.symm

theorem countP_split {β : Type} (e q : β → Bool) : ∀ T : List β,
    T.countP (fun t => !e t && q t) + T.countP (fun t => e t && q t) = T.countP q
  | [] => rfl
  | t :: T => by
    have ih := countP_split e q T
    simp only [List.countP_cons]
    cases e t <;> cases q t <;>
      simp only [Bool.not_true, Bool.not_false, Bool.and_false, Bool.and_true, Bool.false_eq_true, if_true,
        if_false] <;> omega

/-- **C82.** The counters of a copy-on-write MERGE with a plan other than the fast append are the numbers of rows that
the statement inserts, updates and deletes, by kind of clause; the copied rows are the unchanged rows of rewritten
files. -/
theorem C82_metrics_partial {o : Options α} (hv : Spec.Valid o) {unique : Bool} {T : List (TRow α)} {S : List (Row α)}
    (hs : Spec.Single o T S) (hi : insertOnly o = false) {rows : List (PRow α)}
    (h : cowInput o (needsCheck o unique) T S S S = .ok rows) :
    (cowMetrics o rows).inserted = ((Spec.unmatched o T S).filterMap (Spec.inserted o)).length ∧
    (cowMetrics o rows).updated = T.countP (fun t => (Spec.fate o S t.vals).isUpdate) ∧
    (cowMetrics o rows).deleted = T.countP (fun t => (Spec.fate o S t.vals).isDelete) ∧
    (cowMetrics o rows).matchedUpdated =
      T.countP (fun t => !(Spec.matchesOf o S t.vals).isEmpty && (Spec.fate o S t.vals).isUpdate) ∧
    (cowMetrics o rows).matchedDeleted =
      T.countP (fun t => !(Spec.matchesOf o S t.vals).isEmpty && (Spec.fate o S t.vals).isDelete) ∧
    (cowMetrics o rows).bySourceUpdated =
      T.countP (fun t => (Spec.matchesOf o S t.vals).isEmpty && (Spec.fate o S t.vals).isUpdate) ∧
    (cowMetrics o rows).bySourceDeleted =
      T.countP (fun t => (Spec.matchesOf o S t.vals).isEmpty && (Spec.fate o S t.vals).isDelete) ∧
    (cowMetrics o rows).copied = T.countP (fun t => (Spec.fate o S t.vals).isKeep &&
      T.any (fun u => u.file == t.file && !(Spec.fate o S u.vals).isKeep)) ∧
    (cowMetrics o rows).sourceRows = S.length := by
  obtain ⟨l, hl, hops, hsum⟩ := general_counts hv hs hi h
  have hc : ∀ op, cnt op rows = (rows.map (·.op)).count op := fun op => cnt_of_ops op rows
  obtain ⟨h1, h2, h3, h4, _, h6, h7, h8, h9, h10, h11⟩ :=
    fold_counts rows ({ usesMetric := !insertOnly o && !rows.isEmpty } : Counters)
  have hcount : ∀ op, op ≠ .copy → op ≠ .insert → op ≠ .sourceMetric →
      cnt op rows = T.countP (fun t => opOf o S t.vals == op) := by
    intro op hne hins hsm
    rw [hc, hops, List.count_append, List.count_append, count_map_const, if_neg (fun h => hins h.symm),
      count_filter_map T (fun t ht hop => opOf_touched hl hne ht hop)]
    have : ([Op.sourceMetric]).count op = 0 := by
      rw [List.count_eq_zero]
      simp only [List.mem_singleton]
      exact hsm
    omega
  have hne : rows.isEmpty = false := by
    cases rows with
    | nil => simp at hops
    | cons _ _ => rfl
  have hop : ∀ t : TRow α,
      (opOf o S t.vals == .matchedUpdate) =
        (!(Spec.matchesOf o S t.vals).isEmpty && (Spec.fate o S t.vals).isUpdate) ∧
      (opOf o S t.vals == .matchedDelete) =
        (!(Spec.matchesOf o S t.vals).isEmpty && (Spec.fate o S t.vals).isDelete) ∧
      (opOf o S t.vals == .bySourceUpdate) =
        ((Spec.matchesOf o S t.vals).isEmpty && (Spec.fate o S t.vals).isUpdate) ∧
      (opOf o S t.vals == .bySourceDelete) =
        ((Spec.matchesOf o S t.vals).isEmpty && (Spec.fate o S t.vals).isDelete) ∧
      (opOf o S t.vals == .update) = false ∧ (opOf o S t.vals == .delete) = false ∧
      (opOf o S t.vals == .copy) = (Spec.fate o S t.vals).isKeep := by
    intro t
    rw [opOf]
    cases (Spec.matchesOf o S t.vals).isEmpty <;> cases Spec.fate o S t.vals <;>
      simp [Spec.Fate.isUpdate, Spec.Fate.isDelete, Spec.Fate.isKeep]
  have hsplit : ∀ q : TRow α → Bool, T.countP (fun t => !(Spec.matchesOf o S t.vals).isEmpty && q t) +
      T.countP (fun t => (Spec.matchesOf o S t.vals).isEmpty && q t) = T.countP q := by
    intro q
    exact countP_split (fun t => (Spec.matchesOf o S t.vals).isEmpty) q T
  have hmu := hcount .matchedUpdate (by simp) (by simp) (by simp)
  have hmd := hcount .matchedDelete (by simp) (by simp) (by simp)
  have hbu := hcount .bySourceUpdate (by simp) (by simp) (by simp)
  have hbd := hcount .bySourceDelete (by simp) (by simp) (by simp)
  have hup := hcount .update (by simp) (by simp) (by simp)
  have hde := hcount .delete (by simp) (by simp) (by simp)
  simp only [fun t => (hop t).1] at hmu
  simp only [fun t => (hop t).2.1] at hmd
  simp only [fun t => (hop t).2.2.1] at hbu
  simp only [fun t => (hop t).2.2.2.1] at hbd
  simp only [fun t => (hop t).2.2.2.2.1] at hup
  simp only [fun t => (hop t).2.2.2.2.2.1] at hde
  have hz : T.countP (fun _ => false) = 0 := by simp
  rw [hz] at hup hde
  have hsu := hsplit (fun t => (Spec.fate o S t.vals).isUpdate)
  have hsd := hsplit (fun t => (Spec.fate o S t.vals).isDelete)
  rw [cowMetrics, accumulate]
  refine ⟨?_, ?_, ?_, ?_, ?_, ?_, ?_, ?_, ?_⟩
  · rw [h2, hc, hops, List.count_append, List.count_append, count_map_const, if_pos rfl, count_inserts]
    have : ((T.filter (fun t => l.contains t.file)).map (fun t => opOf o S t.vals)).count .insert = 0 := by
      rw [List.count_eq_zero]
      intro hm
      obtain ⟨t, _, hop⟩ := List.mem_map.1 hm
      rw [opOf] at hop
      split at hop <;> exact nomatch hop
    rw [this]
    simp
  · rw [h3, hup, hmu, hbu, ← hsu]
    simp
  · rw [h4, hde, hmd, hbd, ← hsd]
    simp
  · rw [h6, hmu]; simp
  · rw [h8, hmd]; simp
  · rw [h7, hbu]; simp
  · rw [h9, hbd]; simp
  · rw [h1, hc, hops, List.count_append, List.count_append, count_map_const, if_neg (by simp)]
    have hcp : ((T.filter (fun t => l.contains t.file)).map (fun t => opOf o S t.vals)).count .copy =
        T.countP (fun t => (opOf o S t.vals == .copy) && l.contains t.file) := by
      rw [List.count, List.countP_map, List.countP_filter]
      rfl
    rw [hcp]
    have : T.countP (fun t => (opOf o S t.vals == .copy) && l.contains t.file) =
        T.countP (fun t => (Spec.fate o S t.vals).isKeep &&
          T.any (fun u => u.file == t.file && !(Spec.fate o S u.vals).isKeep)) := by
      congr 1
      funext t
      rw [(hop t).2.2.2.2.2.2]
      congr 1
      rw [Bool.eq_iff_iff, List.contains_iff_mem, hl, List.any_eq_true]
      simp only [Bool.and_eq_true, beq_iff_eq, Bool.not_eq_true', ← Bool.not_eq_true, isKeep_iff]
    rw [this]
    simp
  · rw [Counters.sourceRows, h11, h10, hsum, hi, hne]
    simp

/-- **C82.** The counters of an insert-only MERGE: the inserted rows and the rows of the source. -/
theorem C82_insert_only_metrics {o : Options α} (hv : Spec.Valid o) (hi : insertOnly o = true) (check : Bool)
    {T : List (TRow α)} {S : List (Row α)} {rows : List (PRow α)} (h : cowInput o check T S S S = .ok rows) :
    (cowMetrics o rows).inserted = ((Spec.unmatched o T S).filterMap (Spec.inserted o)).length ∧
    (cowMetrics o rows).updated = 0 ∧ (cowMetrics o rows).deleted = 0 ∧ (cowMetrics o rows).copied = 0 ∧
    (cowMetrics o rows).sourceRows = S.length := by
  rw [cowInput, hi] at h
  simp only [if_true] at h
  rw [fastPlan, fast_unmatched] at h
  obtain ⟨hrows, _⟩ := finishRows_ok hv h
  rw [List.append_nil, List.map_append, List.map_map, List.map_map] at hrows
  have hops : rows.map (·.op) = (Spec.unmatched o T S).map (fastOp o) ++
      (S.filter (fun s => T.any (fun t => joins o.on t.vals s))).map (fun _ => Op.noop) := by
    rw [hrows, List.map_append, List.map_map, List.map_map]
    rfl
  have hc : ∀ op, cnt op rows = (rows.map (·.op)).count op := fun op => cnt_of_ops op rows
  have hfo : ∀ op, op ≠ .insert → op ≠ .noop → ∀ l : List (Row α), (l.map (fastOp o)).count op = 0 := by
    intro op h1 h2 l
    rw [List.count_eq_zero]
    intro hm
    obtain ⟨s, _, hs⟩ := List.mem_map.1 hm
    rw [fastOp_eq] at hs
    split_ifs at hs
    · exact h1 hs.symm
    · exact h2 hs.symm
  have h0 : ∀ op, op ≠ .insert → op ≠ .noop → cnt op rows = 0 := by
    intro op h1 h2
    rw [hc, hops, List.count_append, hfo op h1 h2, count_map_const, if_neg (fun h => h2 h.symm)]
  have hins : cnt .insert rows = ((Spec.unmatched o T S).filterMap (Spec.inserted o)).length := by
    rw [hc, hops, List.count_append, count_map_const, if_neg (by simp), ← count_inserts, List.count, List.countP_map,
      ← List.countP_eq_length_filter, Nat.add_zero]
    congr 1
    funext s
    simp only [Function.comp, fastOp_eq]
    split_ifs with hp <;> simp [hp]
  have hno : cnt .insert rows + cnt .noop rows = S.length := by
    rw [hc, hc, hops, List.count_append, List.count_append, count_map_const, count_map_const, if_neg (by simp),
      if_pos rfl]
    have h1 : ∀ l : List (Row α), (l.map (fastOp o)).count .insert + (l.map (fastOp o)).count .noop = l.length := by
      intro l
      induction l with
      | nil => rfl
      | cons s l ih =>
        rw [List.map_cons, List.count_cons, List.count_cons, List.length_cons]
        have hor : fastOp o s = .insert ∨ fastOp o s = .noop := by
          rw [fastOp_eq]
          split_ifs <;> simp
        have e1 : (Op.insert == Op.noop) = false := rfl
        have e2 : (Op.noop == Op.insert) = false := rfl
        rcases hor with hor | hor <;>
          simp only [hor, e1, e2, beq_self_eq_true, if_true, Bool.false_eq_true, if_false] <;> omega
    have h2 := h1 (Spec.unmatched o T S)
    have h3 : (Spec.unmatched o T S).length + (S.filter (fun s => T.any (fun t => joins o.on t.vals s))).length =
        S.length := by
      rw [← fast_unmatched, ← List.length_append]
      have := (List.filter_append_perm (fun s => T.any (fun t => joins o.on t.vals s)) S).length_eq
      rw [List.length_append] at this ⊢
      omega
    omega
  have hsum : metricSum rows = 0 := by
    have hnm : ∀ p ∈ rows, p.op ≠ .sourceMetric := by
      intro p hp hop
      have : cnt .sourceMetric rows = 0 := h0 _ (by simp) (by simp)
      rw [cnt, List.countP_eq_zero] at this
      exact this p hp (by simp [hop])
    exact metricSum_zero hnm
  obtain ⟨h1, h2, h3, h4, h5, h6, h7, h8, h9, h10, h11⟩ :=
    fold_counts rows ({ usesMetric := !insertOnly o && !rows.isEmpty } : Counters)
  have z1 := h0 .copy (by simp) (by simp)
  have z2 := h0 .update (by simp) (by simp)
  have z3 := h0 .delete (by simp) (by simp)
  have z4 := h0 .matchedUpdate (by simp) (by simp)
  have z5 := h0 .matchedDelete (by simp) (by simp)
  have z6 := h0 .bySourceUpdate (by simp) (by simp)
  have z7 := h0 .bySourceDelete (by simp) (by simp)
  simp only [z1, z2, z3, z4, z5, z6, z7, hsum, hi] at h1 h2 h3 h4 h5 h6 h7 h8 h9 h10 h11
  rw [cowMetrics, accumulate]
  refine ⟨?_, ?_, ?_, ?_, ?_⟩
  · rw [hi, h2, hins]; simp
  · rw [hi, h3]
  · rw [hi, h4]
  · rw [hi, h1]
  · rw [Counters.sourceRows, hi, h11, h10, h2, h3, h4, h5, h6, h8]
    simp only [Bool.not_true, Bool.false_and, Bool.false_eq_true, if_false, Nat.lt_irrefl, Nat.zero_add, Nat.add_zero]
    split_ifs <;> exact hno

/-! ## Examples -/

/-- The hypotheses of `C82_metrics_partial` are met. -/
example : Spec.Valid sampleMerge ∧ Spec.Single sampleMerge sampleTable sampleSource ∧ insertOnly sampleMerge = false :=
  ⟨sampleMerge_valid, sample_single, rfl⟩

example : (cowInput sampleMerge (needsCheck sampleMerge false) sampleTable sampleSource sampleSource sampleSource).map
    (cowMetrics sampleMerge) = .ok
      { copied := 1, inserted := 1, updated := 2, deleted := 1, sourceMetric := 3, matchedUpdated := 1,
        bySourceUpdated := 1, matchedDeleted := 1, detailed := true, usesMetric := true } := by decide +kernel

/-- The hypotheses of `C82_insert_only_metrics` are met. -/
example : (cowInput sampleInsert false sampleTable sampleSource sampleSource sampleSource).map
    (cowMetrics sampleInsert) = .ok { inserted := 1, noop := 2, detailed := true } := by decide +kernel

/-! ## What does not hold -/

/-- **C82.** If a statement with a lone DELETE clause meets a target row that matches two source rows, the row is counted
twice as deleted. -/
theorem C82_deleted_row_counted_twice : ∃ (o : Options Nat) (T : List (TRow Nat)) (S : List (Row Nat))
    (rows : List (PRow Nat)), Spec.Valid o ∧ Spec.Stored o T ∧ Spec.Sourced o S ∧ T.length = 1 ∧
      cowInput o (needsCheck o false) T S S S = .ok rows ∧ (cowMetrics o rows).deleted = 2 := by
  refine ⟨sampleDelete, [⟨0, 0, [some 1, some 10]⟩], [[some 1, none], [some 1, some 3]],
    [⟨[none, none], none, none, .sourceMetric, some 2⟩, ⟨[some 1, some 10], some 0, some 0, .matchedDelete, none⟩,
      ⟨[some 1, some 10], some 0, some 0, .matchedDelete, none⟩], sampleDelete_valid, ?_, ?_, rfl, ?_, ?_⟩
  · exact ⟨by decide +kernel, fun _ _ _ _ _ => rfl, by decide +kernel, by decide +kernel⟩
  · simp [Spec.Sourced, sampleDelete, sampleMerge, sampleNames]
  · decide +kernel
  · decide +kernel

end Verif.Merge
