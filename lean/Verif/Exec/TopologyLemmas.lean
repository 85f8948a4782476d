import Verif.Exec.Topology
import Mathlib.Data.List.Nodup
import Mathlib.Data.List.Perm.Basic
import Mathlib.Data.List.Perm.Subperm
import Mathlib.Logic.Relation

namespace Verif.Exec

theorem pushAll_spec (nbrs visited queue : List Nat) :
    ∃ new, (pushAll nbrs visited queue) = (visited ++ new, queue ++ new) ∧ new.Nodup ∧
      (∀ x ∈ new, x ∉ visited ∧ x ∈ nbrs) ∧ (∀ x ∈ nbrs, x ∈ visited ++ new) := by
  induction nbrs generalizing visited queue with
  | nil => exact ⟨[], by simp [pushAll]⟩
  | cons v nbrs ih =>
    unfold pushAll at ih ⊢
    rw [List.foldl_cons]
    by_cases hv : v ∈ visited
    · simp only [hv, if_true]
      obtain ⟨new, h1, h2, h3, h4⟩ := ih visited queue
      refine ⟨new, h1, h2, fun x hx => ⟨(h3 x hx).1, by simp [(h3 x hx).2]⟩, ?_⟩
      intro x hx
      rcases List.mem_cons.mp hx with rfl | hx
      · simp [hv]
      · exact h4 x hx
    · simp only [hv, if_false]
      obtain ⟨new, h1, h2, h3, h4⟩ := ih (visited ++ [v]) (queue ++ [v])
      refine ⟨v :: new, by rw [h1]; simp, ?_, ?_, ?_⟩
      · refine List.nodup_cons.mpr ⟨fun hm => (h3 v hm).1 (by simp), h2⟩
      · intro x hx
        rcases List.mem_cons.mp hx with rfl | hx
        · exact ⟨hv, by simp⟩
        · have := h3 x hx
          exact ⟨fun h => this.1 (by simp [h]), by simp [this.2]⟩
      · intro x hx
        rcases List.mem_cons.mp hx with rfl | hx
        · simp
        · have := h4 x hx
          simpa using this

abbrev Conn (adj : Nat → List Nat) := Relation.ReflTransGen fun a b => b ∈ adj a

theorem length_le_of_nodup_lt {n : Nat} {l : List Nat} (h : l.Nodup) (hb : ∀ x ∈ l, x < n) :
    l.length ≤ n := by
  have : l.Subperm (List.range n) :=
    List.subperm_of_subset h (fun x hx => List.mem_range.mpr (hb x hx))
  simpa using this.length_le

theorem bfs_inv (adj : Nat → List Nat) (n s : Nat) (V0 : List Nat)
    (hadj : ∀ u, ∀ v ∈ adj u, v < n) :
    ∀ fuel queue comp,
      (V0 ++ comp ++ queue).Nodup → (∀ x ∈ V0 ++ comp ++ queue, x < n) →
      (∀ u ∈ comp, ∀ v ∈ adj u, v ∈ V0 ++ comp ++ queue) →
      (∀ x ∈ comp ++ queue, Conn adj s x) →
      comp.length + fuel = n →
      ∃ comp', bfs adj fuel (V0 ++ comp ++ queue) queue comp = (V0 ++ comp', comp') ∧
        (V0 ++ comp').Nodup ∧ (∀ x ∈ V0 ++ comp', x < n) ∧
        (∀ u ∈ comp', ∀ v ∈ adj u, v ∈ V0 ++ comp') ∧ (∀ x ∈ comp', Conn adj s x) ∧
        (∀ x ∈ comp ++ queue, x ∈ comp') := by
  intro fuel
  induction fuel with
  | zero =>
    intro queue comp hnd hlt hcl hreach hf
    have hlen := length_le_of_nodup_lt hnd hlt
    simp only [List.length_append] at hlen
    have hq : queue = [] := by
      apply List.eq_nil_of_length_eq_zero; omega
    subst hq
    refine ⟨comp, by simp [bfs], by simpa using hnd, by simpa using hlt, by simpa using hcl,
      by simpa using hreach, by simp⟩
  | succ fuel ih =>
    intro queue comp hnd hlt hcl hreach hf
    cases queue with
    | nil =>
      refine ⟨comp, by simp [bfs], by simpa using hnd, by simpa using hlt, by simpa using hcl,
        by simpa using hreach, by simp⟩
    | cons u queue =>
      obtain ⟨new, h1, h2, h3, h4⟩ := pushAll_spec (adj u) (V0 ++ comp ++ u :: queue) queue
      have e : V0 ++ comp ++ u :: queue ++ new = V0 ++ (comp ++ [u]) ++ (queue ++ new) := by simp
      have hstep : bfs adj (fuel + 1) (V0 ++ comp ++ u :: queue) (u :: queue) comp =
          bfs adj fuel (V0 ++ (comp ++ [u]) ++ (queue ++ new)) (queue ++ new) (comp ++ [u]) := by
        simp only [bfs, h1, e]
      have hu : Conn adj s u := hreach u (by simp)
      obtain ⟨comp', r1, r2, r3, r4, r5, r6⟩ := ih (queue ++ new) (comp ++ [u])
        (by
          rw [← e]
          refine List.nodup_append'.mpr ⟨hnd, h2, ?_⟩
          intro x hx hx'
          exact (h3 x hx').1 hx)
        (by
          rw [← e]
          intro x hx
          rcases List.mem_append.mp hx with hx | hx
          · exact hlt x hx
          · exact hadj u x (h3 x hx).2)
        (by
          rw [← e]
          intro w hw v hv
          rcases List.mem_append.mp hw with hw | hw
          · exact List.mem_append_left _ (hcl w hw v hv)
          · obtain rfl : w = u := by simpa using hw
            exact h4 v hv)
        (by
          intro x hx
          have : x ∈ comp ++ u :: queue ∨ x ∈ new := by
            simp only [List.mem_append, List.mem_cons] at hx ⊢
            tauto
          rcases this with hx | hx
          · exact hreach x hx
          · exact hu.tail (h3 x hx).2)
        (by simp; omega)
      refine ⟨comp', by rw [hstep]; exact r1, r2, r3, r4, r5, ?_⟩
      intro x hx
      apply r6
      simp only [List.mem_append, List.mem_cons] at hx ⊢
      tauto

/-- State of the component loop after processing the stages below `k`. -/
structure CompInv (adj : Nat → List Nat) (n k : Nat) (st : List Nat × List (List Nat)) : Prop where
  eq : st.1 = st.2.flatten
  nodup : st.1.Nodup
  lt : ∀ x ∈ st.1, x < n
  below : ∀ x < k, x ∈ st.1
  closed : ∀ c ∈ st.2, ∀ u ∈ c, ∀ v ∈ adj u, v ∈ c
  conn : ∀ c ∈ st.2, ∃ s ∈ c, ∀ x ∈ c, Conn adj s x

theorem componentStep_inv (adj : Nat → List Nat) (n k : Nat) (hk : k < n)
    (hadj : ∀ u, ∀ v ∈ adj u, v < n) (hsym : ∀ u v, v ∈ adj u → u ∈ adj v)
    (st : List Nat × List (List Nat)) (h : CompInv adj n k st) :
    CompInv adj n (k + 1) (componentStep adj n st k) := by
  unfold componentStep
  split
  · rename_i hmem
    refine ⟨h.eq, h.nodup, h.lt, ?_, h.closed, h.conn⟩
    intro x hx
    rcases Nat.lt_succ_iff_lt_or_eq.mp hx with hx | rfl
    · exact h.below x hx
    · exact hmem
  · rename_i hmem
    have hnd : (st.1 ++ [] ++ [k]).Nodup := by
      simp only [List.append_nil]
      refine List.nodup_append'.mpr ⟨h.nodup, by simp, ?_⟩
      intro x hx hx'
      simp only [List.mem_singleton] at hx'
      exact hmem (hx' ▸ hx)
    obtain ⟨comp', r1, r2, r3, r4, r5, r6⟩ := bfs_inv adj n k st.1 hadj n [k] []
      hnd
      (by
        intro x hx
        simp only [List.append_nil, List.mem_append, List.mem_singleton] at hx
        rcases hx with hx | rfl
        · exact h.lt x hx
        · exact hk)
      (by simp)
      (by
        intro x hx
        simp only [List.nil_append, List.mem_singleton] at hx
        subst hx; exact Relation.ReflTransGen.refl)
      (by simp)
    simp only [List.append_nil] at r1
    rw [r1]
    have hkc : k ∈ comp' := r6 k (by simp)
    have hV0closed : ∀ w ∈ st.1, ∀ v ∈ adj w, v ∈ st.1 := by
      intro w hw v hv
      rw [h.eq] at hw ⊢
      obtain ⟨c, hc, hwc⟩ := List.mem_flatten.mp hw
      exact List.mem_flatten.mpr ⟨c, hc, h.closed c hc w hwc v hv⟩
    refine ⟨?_, r2, r3, ?_, ?_, ?_⟩
    · simp only [List.flatten_append, List.flatten_cons, List.flatten_nil, List.append_nil]
      rw [← h.eq]
    · intro x hx
      rcases Nat.lt_succ_iff_lt_or_eq.mp hx with hx | rfl
      · exact List.mem_append_left _ (h.below x hx)
      · exact List.mem_append_right _ hkc
    · intro c hc u hu v hv
      rcases List.mem_append.mp hc with hc | hc
      · exact h.closed c hc u hu v hv
      · obtain rfl : c = comp' := by simpa using hc
        rcases List.mem_append.mp (r4 u hu v hv) with hv' | hv'
        · exfalso
          have : u ∈ st.1 := hV0closed v hv' u (hsym u v hv)
          exact (List.nodup_append'.mp r2).2.2 this hu
        · exact hv'
    · intro c hc
      rcases List.mem_append.mp hc with hc | hc
      · exact h.conn c hc
      · obtain rfl : c = comp' := by simpa using hc
        exact ⟨k, hkc, r5⟩

theorem components_inv (adj : Nat → List Nat) (n : Nat)
    (hadj : ∀ u, ∀ v ∈ adj u, v < n) (hsym : ∀ u v, v ∈ adj u → u ∈ adj v) :
    CompInv adj n n ((List.range n).foldl (componentStep adj n) ([], [])) := by
  have : ∀ k ≤ n, CompInv adj n k ((List.range k).foldl (componentStep adj n) ([], [])) := by
    intro k
    induction k with
    | zero => intro _; exact ⟨rfl, by simp, by simp, by simp, by simp, by simp⟩
    | succ k ih =>
      intro hk
      rw [List.range_succ, List.foldl_append]
      exact componentStep_inv adj n k (by omega) hadj hsym _ (ih (by omega))
  exact this n (Nat.le_refl n)

theorem components_perm (adj : Nat → List Nat) (n : Nat)
    (hadj : ∀ u, ∀ v ∈ adj u, v < n) (hsym : ∀ u v, v ∈ adj u → u ∈ adj v) :
    (components adj n).flatten.Perm (List.range n) := by
  have h := components_inv adj n hadj hsym
  unfold components
  rw [← h.eq]
  apply (List.perm_ext_iff_of_nodup h.nodup List.nodup_range).mpr
  intro x
  exact ⟨fun hx => List.mem_range.mpr (h.lt x hx), fun hx => h.below x (List.mem_range.mp hx)⟩

/-- The inputs of every stage refer to stages of the graph. -/
def TGraph.WF (g : TGraph) : Prop := ∀ s, ∀ i ∈ g.inputs s, i.1 < g.length

theorem inputs_nil_of_ge (g : TGraph) (s : Nat) (h : g.length ≤ s) : g.inputs s = [] := by
  simp [TGraph.inputs, TGraph.stage, List.getD, h]

theorem mem_consumers {g : TGraph} {s c : Nat} :
    c ∈ g.consumers s ↔ ∃ m, (s, m) ∈ g.inputs c := by
  simp only [TGraph.consumers, List.mem_flatMap, List.mem_range, List.mem_map, List.mem_filter,
    beq_iff_eq]
  constructor
  · rintro ⟨c', _, i, ⟨hi, rfl⟩, rfl⟩; exact ⟨i.2, hi⟩
  · rintro ⟨m, hm⟩
    refine ⟨c, ?_, (s, m), ⟨hm, rfl⟩, rfl⟩
    by_contra hge
    rw [inputs_nil_of_ge g c (by omega)] at hm
    simp at hm

theorem mem_adjacent {g : TGraph} {u v : Nat} :
    v ∈ g.adjacent u ↔ ((∃ m, (v, m) ∈ g.inputs u) ∧ (g.stage v).pipelined = true) ∨
      ((∃ m, (u, m) ∈ g.inputs v) ∧ (g.stage u).pipelined = true) := by
  unfold TGraph.adjacent
  rw [List.mem_append]
  constructor
  · rintro (h | h)
    · simp only [List.mem_map, List.mem_filter] at h
      obtain ⟨i, ⟨hi, hp⟩, rfl⟩ := h
      exact Or.inl ⟨⟨i.2, hi⟩, hp⟩
    · split at h
      · rename_i hp
        exact Or.inr ⟨mem_consumers.mp h, hp⟩
      · simp at h
  · rintro (⟨⟨m, hm⟩, hp⟩ | ⟨hm, hp⟩)
    · left
      exact List.mem_map.mpr ⟨(v, m), List.mem_filter.mpr ⟨hm, hp⟩, rfl⟩
    · right
      simp only [hp, if_true]
      exact mem_consumers.mpr hm

theorem adjacent_symm (g : TGraph) (u v : Nat) (h : v ∈ g.adjacent u) : u ∈ g.adjacent v := by
  rw [mem_adjacent] at h ⊢
  tauto

theorem adjacent_lt (g : TGraph) (hg : g.WF) (u v : Nat) (h : v ∈ g.adjacent u) :
    v < g.length := by
  rw [mem_adjacent] at h
  rcases h with ⟨⟨m, hm⟩, _⟩ | ⟨⟨m, hm⟩, _⟩
  · exact hg u (v, m) hm
  · by_contra hge
    rw [inputs_nil_of_ge g v (by omega)] at hm
    simp at hm

end Verif.Exec
