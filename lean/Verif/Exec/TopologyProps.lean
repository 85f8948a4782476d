import Verif.Exec.TopologyLemmas
import Mathlib.Data.Nat.Find

/-!
# C14 (regions cover every task once), and the dependency part of C03 and C30
-/

namespace Verif.Exec

namespace Spec

/-- Stage `u` and stage `v` exchange data through an in-memory (pipelined) stream. -/
def Piped (g : TGraph) (u v : Nat) : Prop :=
  (∃ m, (v, m) ∈ g.inputs u ∧ (g.stage v).pipelined = true) ∨
  (∃ m, (u, m) ∈ g.inputs v ∧ (g.stage u).pipelined = true)

/-- The tasks of a job: one per partition of each stage. -/
def IsTask (g : TGraph) (t : Task) : Prop := t.1 < g.length ∧ t.2 < g.parts t.1

end Spec

theorem piped_iff_adjacent {g : TGraph} {u v : Nat} : Spec.Piped g u v ↔ v ∈ g.adjacent u := by
  rw [mem_adjacent, Spec.Piped]
  constructor
  · rintro (⟨m, h, hp⟩ | ⟨m, h, hp⟩)
    · exact Or.inl ⟨⟨m, h⟩, hp⟩
    · exact Or.inr ⟨⟨m, h⟩, hp⟩
  · rintro (⟨⟨m, h⟩, hp⟩ | ⟨⟨m, h⟩, hp⟩)
    · exact Or.inl ⟨m, h, hp⟩
    · exact Or.inr ⟨m, h, hp⟩

/-- Shape of the regions of one component. -/
theorem componentRegions_spec (g : TGraph) (comp : List Nat) (rs : List (List Task))
    (h : componentRegions g comp = some rs) :
    (allForward g comp = true ∧ ∃ p, (∀ s ∈ comp, g.parts s = p) ∧
      rs = (List.range p).map fun q => comp.map fun s => (s, q)) ∨
    (allForward g comp = false ∧
      rs = [comp.flatMap fun s => (List.range (g.parts s)).map fun p => (s, p)]) := by
  unfold componentRegions at h
  split at h
  · rename_i hf
    left
    refine ⟨hf, ?_⟩
    cases hc : comp.map g.parts with
    | nil => simp [hc] at h
    | cons p ps =>
      simp only [hc] at h
      split at h
      · rename_i hall
        refine ⟨p, ?_, (Option.some.inj h).symm⟩
        intro s hs
        have hm : g.parts s ∈ comp.map g.parts := List.mem_map_of_mem hs
        rw [hc] at hm
        rcases List.mem_cons.mp hm with h' | h'
        · exact h'
        · simpa using List.all_eq_true.mp hall _ h'
      · simp at h
  · rename_i hf
    right
    exact ⟨by simpa using hf, (Option.some.inj h).symm⟩

theorem componentRegions_cover (g : TGraph) (comp : List Nat) (rs : List (List Task))
    (hnd : comp.Nodup) (h : componentRegions g comp = some rs) :
    rs.flatten.Nodup ∧ ∀ t : Task, t ∈ rs.flatten ↔ t.1 ∈ comp ∧ t.2 < g.parts t.1 := by
  rcases componentRegions_spec g comp rs h with ⟨_, p, hp, rfl⟩ | ⟨_, rfl⟩
  · constructor
    · rw [← List.flatMap_def, List.nodup_flatMap]
      constructor
      · intro q _
        exact hnd.map (fun a b hab => (Prod.mk.inj hab).1)
      · apply List.Pairwise.imp _ (List.nodup_range (n := p))
        intro a b hab x hx hx'
        simp only [List.mem_map] at hx hx'
        obtain ⟨s, _, rfl⟩ := hx
        obtain ⟨s', _, h'⟩ := hx'
        exact hab (Prod.mk.inj h').2.symm
    · intro t
      simp only [List.mem_flatten, List.mem_map, List.mem_range]
      constructor
      · rintro ⟨_, ⟨q, hq, rfl⟩, ht⟩
        obtain ⟨s, hs, rfl⟩ := List.mem_map.mp ht
        exact ⟨hs, by simpa [hp s hs] using hq⟩
      · rintro ⟨h1, h2⟩
        refine ⟨_, ⟨t.2, by rw [← hp t.1 h1]; exact h2, rfl⟩, ?_⟩
        exact List.mem_map.mpr ⟨t.1, h1, rfl⟩
  · simp only [List.flatten_cons, List.flatten_nil, List.append_nil]
    constructor
    · rw [List.nodup_flatMap]
      constructor
      · intro s _
        exact List.nodup_range.map (fun a b hab => (Prod.mk.inj hab).2)
      · apply List.Pairwise.imp _ hnd
        intro a b hab x hx hx'
        simp only [List.mem_map] at hx hx'
        obtain ⟨p, _, rfl⟩ := hx
        obtain ⟨p', _, h'⟩ := hx'
        exact hab (Prod.mk.inj h').1.symm
    · intro t
      simp only [List.mem_flatMap, List.mem_map, List.mem_range]
      constructor
      · rintro ⟨s, hs, p, hp, rfl⟩; exact ⟨hs, hp⟩
      · rintro ⟨h1, h2⟩; exact ⟨t.1, h1, t.2, h2, rfl⟩

theorem mapM_cons_some {α β : Type} {f : α → Option β} {a : α} {l : List α} {r : List β}
    (h : (a :: l).mapM f = some r) :
    ∃ b bs, f a = some b ∧ l.mapM f = some bs ∧ r = b :: bs := by
  rw [List.mapM_cons] at h
  cases hb : f a with
  | none => simp [hb] at h
  | some b =>
    cases hbs : l.mapM f with
    | none => simp [hb, hbs] at h
    | some bs =>
      simp [hb, hbs] at h
      exact ⟨b, bs, rfl, rfl, h.symm⟩

theorem mapM_mem {α β : Type} {f : α → Option β} {l : List α} {r : List β}
    (h : l.mapM f = some r) :
    (∀ a ∈ l, ∃ b ∈ r, f a = some b) ∧ (∀ b ∈ r, ∃ a ∈ l, f a = some b) := by
  induction l generalizing r with
  | nil => simp at h; subst h; simp
  | cons a l ih =>
    obtain ⟨b, bs, h1, h2, rfl⟩ := mapM_cons_some h
    obtain ⟨i1, i2⟩ := ih h2
    constructor
    · intro x hx
      rcases List.mem_cons.mp hx with rfl | hx
      · exact ⟨b, by simp, h1⟩
      · obtain ⟨y, hy, hf⟩ := i1 x hx
        exact ⟨y, by simp [hy], hf⟩
    · intro y hy
      rcases List.mem_cons.mp hy with rfl | hy
      · exact ⟨a, by simp, h1⟩
      · obtain ⟨x, hx, hf⟩ := i2 y hy
        exact ⟨x, by simp [hx], hf⟩

theorem regions_cover_aux (g : TGraph) (comps : List (List Nat)) (rss : List (List (List Task)))
    (hnd : comps.flatten.Nodup) (h : comps.mapM (componentRegions g) = some rss) :
    rss.flatten.flatten.Nodup ∧
      ∀ t : Task, t ∈ rss.flatten.flatten ↔ t.1 ∈ comps.flatten ∧ t.2 < g.parts t.1 := by
  induction comps generalizing rss with
  | nil => simp at h; subst h; simp
  | cons c comps ih =>
    obtain ⟨b, bs, h1, h2, rfl⟩ := mapM_cons_some h
    rw [List.flatten_cons] at hnd
    obtain ⟨hc, hcs, hdis⟩ := List.nodup_append'.mp hnd
    obtain ⟨i1, i2⟩ := ih bs hcs h2
    obtain ⟨j1, j2⟩ := componentRegions_cover g c b hc h1
    simp only [List.flatten_cons, List.flatten_append]
    constructor
    · refine List.nodup_append'.mpr ⟨j1, i1, ?_⟩
      intro t ht ht'
      exact hdis ((j2 t).mp ht).1 ((i2 t).mp ht').1
    · intro t
      rw [List.mem_append, j2, i2, List.mem_append]
      tauto

theorem regionTasks_inv {g : TGraph} {regions : List (List Task)}
    (h : regionTasks g = some regions) :
    ∃ rss, (components g.adjacent g.length).mapM (componentRegions g) = some rss ∧
      regions = rss.flatten := by
  unfold regionTasks at h
  obtain ⟨rss, h1, h2⟩ := Option.map_eq_some_iff.mp h
  exact ⟨rss, h1, h2.symm⟩

/-- C14: each task of the job is in exactly one region, once, and regions contain nothing
else. -/
theorem C14_regions_cover_tasks_exactly_once (g : TGraph) (hg : g.WF)
    (regions : List (List Task)) (h : regionTasks g = some regions) :
    regions.flatten.Nodup ∧ ∀ t, t ∈ regions.flatten ↔ Spec.IsTask g t := by
  obtain ⟨rss, h1, rfl⟩ := regionTasks_inv h
  have hp := components_perm g.adjacent g.length (fun u v => adjacent_lt g hg u v)
    (adjacent_symm g)
  obtain ⟨i1, i2⟩ := regions_cover_aux g _ rss (hp.nodup_iff.mpr List.nodup_range) h1
  refine ⟨i1, fun t => ?_⟩
  rw [i2, hp.mem_iff, List.mem_range, Spec.IsTask]

theorem comp_closed (g : TGraph) (hg : g.WF) (comp : List Nat)
    (hc : comp ∈ components g.adjacent g.length) (u v : Nat) (hu : u ∈ comp)
    (hv : v ∈ g.adjacent u) : v ∈ comp :=
  (components_inv g.adjacent g.length (fun u v => adjacent_lt g hg u v)
    (adjacent_symm g)).closed comp hc u hu v hv

theorem exists_comp (g : TGraph) (hg : g.WF) (u : Nat) (hu : u < g.length) :
    ∃ comp ∈ components g.adjacent g.length, u ∈ comp := by
  have hp := components_perm g.adjacent g.length (fun u v => adjacent_lt g hg u v)
    (adjacent_symm g)
  have : u ∈ (components g.adjacent g.length).flatten := hp.mem_iff.mpr (List.mem_range.mpr hu)
  exact List.mem_flatten.mp this

/-- C14: a consumer task and a producer task whose in-memory output it reads are in the same
region. (`one-to-one` inputs only connect equal partitions.) -/
theorem C14_pipelined_tasks_share_a_region (g : TGraph) (hg : g.WF)
    (regions : List (List Task)) (h : regionTasks g = some regions)
    (u v p q : Nat) (m : InputMode) (hin : (v, m) ∈ g.inputs u)
    (hpipe : (g.stage v).pipelined = true)
    (hp : p < g.parts u) (hq : q < g.parts v) (hm : m = .forward → p = q) :
    ∃ r ∈ regions, (u, p) ∈ r ∧ (v, q) ∈ r := by
  obtain ⟨rss, h1, rfl⟩ := regionTasks_inv h
  have hul : u < g.length := by
    by_contra hge
    rw [inputs_nil_of_ge g u (by omega)] at hin
    simp at hin
  obtain ⟨comp, hcomp, hu⟩ := exists_comp g hg u hul
  have hv : v ∈ comp := comp_closed g hg comp hcomp u v hu
    (mem_adjacent.mpr (Or.inl ⟨⟨m, hin⟩, hpipe⟩))
  obtain ⟨rs, hrs, hcr⟩ := (mapM_mem h1).1 comp hcomp
  rcases componentRegions_spec g comp rs hcr with ⟨hf, pc, hpc, rfl⟩ | ⟨_, rfl⟩
  · have hmf : m = .forward := by
      have := List.all_eq_true.mp (List.all_eq_true.mp hf u hu) (v, m) hin
      simpa [hv] using this
    obtain rfl := hm hmf
    refine ⟨comp.map fun s => (s, p), List.mem_flatten.mpr ⟨_, hrs, ?_⟩, ?_, ?_⟩
    · exact List.mem_map.mpr ⟨p, List.mem_range.mpr (by rw [← hpc u hu]; exact hp), rfl⟩
    · exact List.mem_map.mpr ⟨u, hu, rfl⟩
    · exact List.mem_map.mpr ⟨v, hv, rfl⟩
  · refine ⟨_, List.mem_flatten.mpr ⟨_, hrs, List.mem_singleton.mpr rfl⟩, ?_, ?_⟩
    · exact List.mem_flatMap.mpr ⟨u, hu, List.mem_map.mpr ⟨p, List.mem_range.mpr hp, rfl⟩⟩
    · exact List.mem_flatMap.mpr ⟨v, hv, List.mem_map.mpr ⟨q, List.mem_range.mpr hq, rfl⟩⟩

/-- C14: regions are not larger than needed: tasks of one region belong to stages that are
connected by in-memory streams. -/
theorem C14_region_is_connected (g : TGraph) (hg : g.WF)
    (regions : List (List Task)) (h : regionTasks g = some regions)
    (r : List Task) (hr : r ∈ regions) (t t' : Task) (ht : t ∈ r) (ht' : t' ∈ r) :
    Relation.ReflTransGen (Spec.Piped g) t.1 t'.1 := by
  obtain ⟨rss, h1, rfl⟩ := regionTasks_inv h
  obtain ⟨rs, hrs, hrr⟩ := List.mem_flatten.mp hr
  obtain ⟨comp, hcomp, hcr⟩ := (mapM_mem h1).2 rs hrs
  have hin : ∀ x ∈ r, x.1 ∈ comp := by
    intro x hx
    rcases componentRegions_spec g comp rs hcr with ⟨_, pc, _, rfl⟩ | ⟨_, rfl⟩
    · obtain ⟨q, _, rfl⟩ := List.mem_map.mp hrr
      obtain ⟨s, hs, rfl⟩ := List.mem_map.mp hx
      exact hs
    · obtain rfl := List.mem_singleton.mp hrr
      obtain ⟨s, hs, hx⟩ := List.mem_flatMap.mp hx
      obtain ⟨_, _, rfl⟩ := List.mem_map.mp hx
      exact hs
  obtain ⟨s, _, hconn⟩ := (components_inv g.adjacent g.length (fun u v => adjacent_lt g hg u v)
    (adjacent_symm g)).conn comp hcomp
  have hmono : ∀ a b, b ∈ g.adjacent a → Spec.Piped g a b := fun a b hb => piped_iff_adjacent.mpr hb
  have hto : ∀ x ∈ r, Relation.ReflTransGen (Spec.Piped g) s x.1 := fun x hx =>
    Relation.ReflTransGen.mono hmono _ _ (hconn x.1 (hin x hx))
  have hsym : ∀ a b, Spec.Piped g a b → Spec.Piped g b a := by
    intro a b hab
    rcases hab with hab | hab
    · exact Or.inr hab
    · exact Or.inl hab
  have hback : Relation.ReflTransGen (Spec.Piped g) t.1 s := by
    have h1 := hto t ht
    generalize t.1 = t1 at h1
    induction h1 with
    | refl => exact Relation.ReflTransGen.refl
    | tail _ hbc ih => exact Relation.ReflTransGen.head (hsym _ _ hbc) ih
  exact hback.trans (hto t' ht')

/-- C14: the split is only rejected when stages connected by in-memory streams through
one-to-one inputs have different numbers of partitions. -/
theorem C14_rejected_only_for_partition_mismatch (g : TGraph) (hg : g.WF)
    (h : regionTasks g = none) :
    ∃ u v, Relation.ReflTransGen (Spec.Piped g) u v ∧ g.parts u ≠ g.parts v := by
  have inv := components_inv g.adjacent g.length (fun u v => adjacent_lt g hg u v)
    (adjacent_symm g)
  have h' : (components g.adjacent g.length).mapM (componentRegions g) = none := by
    simpa [regionTasks] using h
  have hex : ∀ l : List (List Nat), l.mapM (componentRegions g) = none →
      ∃ c ∈ l, componentRegions g c = none := by
    intro l
    induction l with
    | nil => simp
    | cons a l ih =>
      intro hn
      cases ha : componentRegions g a with
      | none => exact ⟨a, by simp, ha⟩
      | some b =>
        cases hl : l.mapM (componentRegions g) with
        | none =>
          obtain ⟨c, hc, hcn⟩ := ih hl
          exact ⟨c, by simp [hc], hcn⟩
        | some bs => simp [List.mapM_cons, ha, hl] at hn
  obtain ⟨c, hc, hcn⟩ := hex _ h'
  obtain ⟨s, hs, hconn⟩ := inv.conn c hc
  have hex2 : ∃ v ∈ c, g.parts s ≠ g.parts v := by
    by_contra hall
    push Not at hall
    unfold componentRegions at hcn
    split at hcn
    · cases hm : c.map g.parts with
      | nil =>
        have := List.map_eq_nil_iff.mp hm
        subst this; simp at hs
      | cons p ps =>
        simp only [hm] at hcn
        have hall' : ∀ x ∈ c.map g.parts, x = g.parts s := by
          intro x hx
          obtain ⟨v, hv, rfl⟩ := List.mem_map.mp hx
          exact (hall v hv).symm
        rw [hm] at hall'
        have : ps.all (· == p) = true := by
          apply List.all_eq_true.mpr
          intro x hx
          have e1 := hall' x (by simp [hx])
          have e2 := hall' p (by simp)
          simp [e1, e2]
        simp [this] at hcn
    · simp at hcn
  obtain ⟨v, hv, hne⟩ := hex2
  exact ⟨s, v, Relation.ReflTransGen.mono (fun a b hb => piped_iff_adjacent.mpr hb) _ _ (hconn v hv), hne⟩

/-- A query that the split rejects although it is meaningful: a one-partition driver stage
(for example a system table) read one-to-one below a `UNION ALL` with three more partitions. -/
theorem C14_union_with_driver_stage_rejected :
    regionTasks [⟨[], 1, true⟩, ⟨[(0, .forward)], 4, true⟩] = none := by decide

-- scan (2) --shuffle--> agg (3) blocking --forward--> result (3): one region for the
-- pipelined pair and one region per partition of the result.
example : regionTasks [⟨[], 2, true⟩, ⟨[(0, .shuffle)], 3, false⟩, ⟨[(1, .forward)], 3, true⟩]
    = some [[(0, 0), (0, 1), (1, 0), (1, 1), (1, 2)], [(2, 0)], [(2, 1)], [(2, 2)]] := by decide
example : TGraph.WF [⟨[], 2, true⟩, ⟨[(0, .shuffle)], 3, false⟩, ⟨[(1, .forward)], 3, true⟩] := by
  intro s i hi
  match s with
  | 0 => simp [TGraph.inputs, TGraph.stage] at hi
  | 1 => simp [TGraph.inputs, TGraph.stage] at hi; subst hi; decide
  | 2 => simp [TGraph.inputs, TGraph.stage] at hi; subst hi; decide
  | n + 3 => simp [TGraph.inputs, TGraph.stage] at hi

/-! ## Dependencies between regions -/

theorem regionOf_some_of_mem {regions : List (List Task)} {t : Task} (h : t ∈ regions.flatten) :
    ∃ d r, regionOf regions t = some d ∧ regions[d]? = some r ∧ t ∈ r := by
  obtain ⟨r, hr, ht⟩ := List.mem_flatten.mp h
  have : (regions.findIdx? fun r => decide (t ∈ r)).isSome := by
    rw [List.findIdx?_isSome]
    exact List.any_eq_true.mpr ⟨r, hr, by simpa using ht⟩
  obtain ⟨d, hd⟩ := Option.isSome_iff_exists.mp this
  have hd' := List.findIdx?_eq_some_iff_getElem.mp hd
  obtain ⟨hlt, hp, _⟩ := hd'
  exact ⟨d, regions[d], hd, by simp [hlt], by simpa using hp⟩

theorem regionOf_spec {regions : List (List Task)} {t : Task} {d : Nat}
    (h : regionOf regions t = some d) : ∃ r, regions[d]? = some r ∧ t ∈ r := by
  have hd' := List.findIdx?_eq_some_iff_getElem.mp h
  obtain ⟨hlt, hp, _⟩ := hd'
  exact ⟨regions[d], by simp [hlt], by simpa using hp⟩

/-- C03 (dependencies), partial: the regions recorded as dependencies of region `r` contain
every producer task that a task of `r` reads, provided that one-to-one inputs connect equal
partition numbers. Missing for the full property: one-to-one inputs below a union connect
different partition numbers, see `C03_union_reads_unfinished_stage`. -/
theorem C03_dependencies_complete_partial (g : TGraph) (hg : g.WF)
    (regions : List (List Task)) (h : regionTasks g = some regions)
    (r : Nat) (tasks : List Task) (hr : regions[r]? = some tasks)
    (u p v q : Nat) (m : InputMode) (ht : (u, p) ∈ tasks) (hin : (v, m) ∈ g.inputs u)
    (hq : q < g.parts v) (hm : m = .forward → q = p) :
    ∃ d, regionOf regions (v, q) = some d ∧ (d = r ∨ d ∈ regionDeps g regions r) := by
  have hcov := (C14_regions_cover_tasks_exactly_once g hg regions h).2 (v, q)
  obtain ⟨d, rd, hd, _, _⟩ := regionOf_some_of_mem (hcov.mpr ⟨hg u _ hin, hq⟩)
  refine ⟨d, hd, ?_⟩
  by_cases hdr : d = r
  · exact Or.inl hdr
  · right
    unfold regionDeps
    apply List.mem_filter.mpr
    refine ⟨?_, by simpa using hdr⟩
    apply List.mem_flatMap.mpr
    refine ⟨(u, p), by simpa [List.getD, hr] using ht, ?_⟩
    apply List.mem_filterMap.mpr
    refine ⟨(v, q), ?_, hd⟩
    unfold dependencyTasks
    apply List.mem_flatMap.mpr
    refine ⟨(v, m), hin, ?_⟩
    by_cases hmf : m = .forward
    · simp [hmf, hm hmf]
    · simp only [hmf, if_false]
      exact List.mem_map.mpr ⟨q, List.mem_range.mpr hq, rfl⟩

/-- C03 is violated for storage shuffle below a union. Stages 0 and 1 are blocking (storage)
stages with two partitions, stage 2 is their `UNION ALL` with four partitions: partitions 2
and 3 of stage 2 read partitions 0 and 1 of stage 1. The regions of these two tasks have no
dependency at all, so they are started before stage 1 has produced anything. -/
theorem C03_union_reads_unfinished_stage :
    let g : TGraph := [⟨[], 2, false⟩, ⟨[], 2, false⟩, ⟨[(0, .forward), (1, .forward)], 4, true⟩]
    ∃ regions, regionTasks g = some regions ∧
      regionOf regions (1, 0) = some 2 ∧ regionOf regions (1, 1) = some 3 ∧
      regionOf regions (2, 2) = some 6 ∧ regionOf regions (2, 3) = some 7 ∧
      regionDeps g regions 6 = [] ∧ regionDeps g regions 7 = [] := by
  exact ⟨_, rfl, by decide, by decide, by decide, by decide, by decide, by decide⟩

example : let g : TGraph := [⟨[], 2, true⟩, ⟨[(0, .shuffle)], 3, false⟩, ⟨[(1, .forward)], 3, true⟩]
    regionDeps g ((regionTasks g).getD []) 2 = [0] := by decide

/-! ## Dependencies are acyclic -/

namespace Spec

/-- Graphs as built by the planner: stages only read earlier stages, and a pipelined stage is
read through one input of one stage only. (Job graphs come from plan trees; only scalar
subquery stages are shared and these are blocking unless everything is pipelined.) -/
structure TreeShaped (g : TGraph) : Prop where
  earlier : ∀ s, ∀ i ∈ g.inputs s, i.1 < s
  single : ∀ v, (g.stage v).pipelined = true → ∀ u u', (∃ m, (v, m) ∈ g.inputs u) →
    (∃ m, (v, m) ∈ g.inputs u') → u = u'

end Spec

/-- In a tree-shaped graph a blocking stage is the last stage of its component. -/
theorem blocking_is_last (g : TGraph) (ht : Spec.TreeShaped g) (c x : Nat)
    (hb : (g.stage c).pipelined = false)
    (h : Relation.ReflTransGen (fun a b => b ∈ g.adjacent a) c x) : x ≤ c := by
  -- every stage connected to `c` reaches `c` by following consumers of pipelined stages
  have key : Relation.ReflTransGen (fun a b => (g.stage a).pipelined = true ∧
      ∃ m, (a, m) ∈ g.inputs b) x c := by
    induction h with
    | refl => exact Relation.ReflTransGen.refl
    | tail _ hyz ih =>
      rename_i y z _
      rcases mem_adjacent.mp hyz with ⟨hm, hp⟩ | ⟨hm, hp⟩
      · exact Relation.ReflTransGen.head ⟨hp, hm⟩ ih
      · rcases Relation.ReflTransGen.cases_head ih with heq | ⟨w, ⟨_, hw⟩, hrest⟩
        · subst heq; simp [hb] at hp
        · have : w = z := ht.single y hp w z hw hm
          subst this; exact hrest
  clear h hb
  induction key with
  | refl => exact Nat.le_refl _
  | tail _ hyz ih =>
    obtain ⟨m, hm⟩ := hyz.2
    exact Nat.le_trans ih (Nat.le_of_lt (ht.earlier _ _ hm))

theorem region_unique {regions : List (List Task)} (hnd : regions.flatten.Nodup)
    {i j : Nat} {a b : List Task} {t : Task} (hi : regions[i]? = some a) (hj : regions[j]? = some b)
    (ha : t ∈ a) (hb : t ∈ b) : i = j := by
  have hpw := (List.nodup_flatten.mp hnd).2
  obtain ⟨hil, rfl⟩ := List.getElem?_eq_some_iff.mp hi
  obtain ⟨hjl, rfl⟩ := List.getElem?_eq_some_iff.mp hj
  rw [List.pairwise_iff_getElem] at hpw
  rcases Nat.lt_trichotomy i j with h | h | h
  · exact absurd hb (hpw i j hil hjl h ha)
  · exact h
  · exact absurd ha (hpw j i hjl hil h hb)

/-- A dependency of a region comes from a task that reads a blocking stage. -/
theorem dependency_is_blocking (g : TGraph) (hg : g.WF) (regions : List (List Task))
    (h : regionTasks g = some regions) (r d : Nat) (hd : d ∈ regionDeps g regions r) :
    ∃ u p v q m a b, regions[r]? = some a ∧ regions[d]? = some b ∧ (u, p) ∈ a ∧ (v, q) ∈ b ∧
      (v, m) ∈ g.inputs u ∧ (g.stage v).pipelined = false := by
  have hcov := C14_regions_cover_tasks_exactly_once g hg regions h
  unfold regionDeps at hd
  obtain ⟨hd1, hd2⟩ := List.mem_filter.mp hd
  have hdr : d ≠ r := by simpa using hd2
  obtain ⟨⟨u, p⟩, ht, hd3⟩ := List.mem_flatMap.mp hd1
  obtain ⟨⟨v, q⟩, hdt, hro⟩ := List.mem_filterMap.mp hd3
  obtain ⟨b, hb, hvb⟩ := regionOf_spec hro
  obtain ⟨a, ha, hua⟩ : ∃ a, regions[r]? = some a ∧ (u, p) ∈ a := by
    cases hr : regions[r]? with
    | none => simp [List.getD, hr] at ht
    | some a => exact ⟨a, rfl, by simpa [List.getD, hr] using ht⟩
  obtain ⟨⟨v', m⟩, hin, hvq⟩ := List.mem_flatMap.mp hdt
  have hv : v' = v ∧ (m = .forward → p = q) := by
    by_cases hm : m = .forward
    · simp [hm] at hvq; exact ⟨hvq.1.symm, fun _ => hvq.2.symm⟩
    · simp only [hm, if_false] at hvq
      obtain ⟨_, _, he⟩ := List.mem_map.mp hvq
      exact ⟨(Prod.mk.inj he).1, fun h => absurd h hm⟩
  obtain ⟨rfl, hm⟩ := hv
  refine ⟨u, p, v', q, m, a, b, ha, hb, hua, hvb, hin, ?_⟩
  by_contra hpipe
  have hpipe : (g.stage v').pipelined = true := by simpa using hpipe
  have hup := (hcov.2 (u, p)).mp (List.mem_flatten.mpr ⟨a, List.mem_of_getElem? ha, hua⟩)
  have hvq' := (hcov.2 (v', q)).mp (List.mem_flatten.mpr ⟨b, List.mem_of_getElem? hb, hvb⟩)
  obtain ⟨c, hc, h1, h2⟩ := C14_pipelined_tasks_share_a_region g hg regions h u v' p q m hin hpipe
    hup.2 hvq'.2 hm
  obtain ⟨k, hk⟩ := List.mem_iff_getElem?.mp hc
  have e1 := region_unique hcov.1 hk ha h1 hua
  have e2 := region_unique hcov.1 hk hb h2 hvb
  exact hdr (e2.symm.trans e1)

/-- C30 (dependencies): regions never wait for each other in a cycle: the regions can be
ranked so that a region only waits for regions of smaller rank. -/
theorem C30_region_dependencies_acyclic (g : TGraph) (hg : g.WF) (ht : Spec.TreeShaped g)
    (regions : List (List Task)) (h : regionTasks g = some regions) :
    ∃ rank : Nat → Nat, ∀ r, ∀ d ∈ regionDeps g regions r, rank d < rank r := by
  classical
  let P : Nat → Nat → Prop := fun r x => ∃ a t, regions[r]? = some a ∧ t ∈ a ∧
    Relation.ReflTransGen (Spec.Piped g) t.1 x
  refine ⟨fun r => Nat.findGreatest (P r) g.length, fun r d hd => ?_⟩
  obtain ⟨u, p, v, q, m, a, b, ha, hb, hua, hvb, hin, hblk⟩ :=
    dependency_is_blocking g hg regions h r d hd
  have hcov := C14_regions_cover_tasks_exactly_once g hg regions h
  have hul := ((hcov.2 (u, p)).mp (List.mem_flatten.mpr ⟨a, List.mem_of_getElem? ha, hua⟩)).1
  have hu : u ≤ Nat.findGreatest (P r) g.length :=
    Nat.le_findGreatest (Nat.le_of_lt hul) ⟨a, (u, p), ha, hua, Relation.ReflTransGen.refl⟩
  have hv : Nat.findGreatest (P d) g.length ≤ v := by
    have hPv : P d v := ⟨b, (v, q), hb, hvb, Relation.ReflTransGen.refl⟩
    have hvl : v ≤ g.length := Nat.le_of_lt (hg u _ hin)
    obtain ⟨b', t, hb', htb, hconn⟩ := Nat.findGreatest_spec hvl hPv
    obtain rfl : b = b' := Option.some.inj (hb.symm.trans hb')
    have hc := (C14_region_is_connected g hg regions h b (List.mem_of_getElem? hb) (v, q) t hvb
      htb).trans hconn
    exact blocking_is_last g ht v _ hblk
      (Relation.ReflTransGen.mono (fun a b hab => piped_iff_adjacent.mp hab) _ _ hc)
  exact Nat.lt_of_le_of_lt hv (Nat.lt_of_lt_of_le (ht.earlier u _ hin) hu)

/-- C30 (dependencies): when all stages are pipelined no region waits for another one. -/
theorem C30_no_dependencies_when_all_pipelined (g : TGraph) (hg : g.WF)
    (hall : ∀ u, ∀ i ∈ g.inputs u, (g.stage i.1).pipelined = true)
    (regions : List (List Task)) (h : regionTasks g = some regions) (r : Nat) :
    regionDeps g regions r = [] := by
  apply List.eq_nil_iff_forall_not_mem.mpr
  intro d hd
  obtain ⟨u, p, v, q, m, a, b, _, _, _, _, hin, hblk⟩ :=
    dependency_is_blocking g hg regions h r d hd
  have := hall u _ hin
  simp [hblk] at this

example : Spec.TreeShaped [⟨[], 2, true⟩, ⟨[(0, .shuffle)], 3, false⟩, ⟨[(1, .forward)], 3, true⟩] where
  earlier := by
    intro s i hi
    match s with
    | 0 => simp [TGraph.inputs, TGraph.stage] at hi
    | 1 => simp [TGraph.inputs, TGraph.stage] at hi; subst hi; decide
    | 2 => simp [TGraph.inputs, TGraph.stage] at hi; subst hi; decide
    | n + 3 => simp [TGraph.inputs, TGraph.stage] at hi
  single := by
    intro v hv u u' hu hu'
    have key : ∀ u, (∃ m, (v, m) ∈ TGraph.inputs [⟨[], 2, true⟩, ⟨[(0, .shuffle)], 3, false⟩,
        ⟨[(1, .forward)], 3, true⟩] u) → u = v + 1 := by
      rintro u ⟨m, hm⟩
      match u with
      | 0 => simp [TGraph.inputs, TGraph.stage] at hm
      | 1 => simp [TGraph.inputs, TGraph.stage] at hm; omega
      | 2 => simp [TGraph.inputs, TGraph.stage] at hm; omega
      | n + 3 => simp [TGraph.inputs, TGraph.stage] at hm
    rw [key u hu, key u' hu']

end Verif.Exec
