import Mathlib.Data.List.Nodup
import Mathlib.Data.List.Induction
import Verif.Delta.Log

/-! # Lemmas about the Delta log -/

namespace Verif.Delta.Log

/-! ## Specification: the last action that matters decides -/

namespace Spec

/-- `a` is the last action in `as` with property `P`. -/
def LastIs (P : Action → Prop) (as : List Action) (a : Action) : Prop :=
  ∃ pre post, as = pre ++ a :: post ∧ P a ∧ ∀ x ∈ post, ¬ P x

def IsProtocol (a : Action) : Prop := ∃ p, a = .protocol p
def IsMetadata (a : Action) : Prop := ∃ m, a = .metadata m
def IsTxn (app : Nat) (a : Action) : Prop := ∃ t, a = .txn app t
def IsDomain (d : Nat) (a : Action) : Prop := ∃ v, a = .domain d v
/-- The action adds or removes the file. -/
def IsFile (k : Key) (a : Action) : Prop := (∃ f, a = .add k f) ∨ ∃ t, a = .remove k t

end Spec

open Spec

theorem lastIs_nil {P : Action → Prop} {a : Action} : ¬ LastIs P [] a := by
  rintro ⟨pre, post, h, -⟩
  simp at h

theorem lastIs_snoc {P : Action → Prop} {as : List Action} {a b : Action} :
    LastIs P (as ++ [b]) a ↔ (P b ∧ a = b) ∨ (¬ P b ∧ LastIs P as a) := by
  constructor
  · rintro ⟨pre, post, h, hP, hpost⟩
    rcases List.eq_nil_or_concat post with rfl | ⟨post', x, rfl⟩
    · have h' : as ++ [b] = pre ++ [a] := h
      obtain ⟨-, h2⟩ := List.append_inj' h' rfl
      simp at h2
      exact .inl ⟨h2 ▸ hP, h2.symm⟩
    · have h' : as ++ [b] = (pre ++ a :: post') ++ [x] := by rw [h]; simp
      obtain ⟨h1, h2⟩ := List.append_inj' h' rfl
      simp at h2
      subst h2
      refine .inr ⟨hpost _ (by simp), pre, post', h1, hP, fun x hx => hpost x (by simp [hx])⟩
  · rintro (⟨hP, rfl⟩ | ⟨hP, pre, post, rfl, ha, hpost⟩)
    · exact ⟨as, [], rfl, hP, by simp⟩
    · refine ⟨pre, post ++ [b], by simp, ha, ?_⟩
      intro x hx
      rw [List.mem_append] at hx
      obtain hx | hx := hx
      · exact hpost x hx
      · rw [List.mem_singleton] at hx; exact hx ▸ hP

theorem lastIs_unique {P : Action → Prop} {as : List Action} {a b : Action}
    (ha : LastIs P as a) (hb : LastIs P as b) : a = b := by
  induction as using List.reverseRecOn with
  | nil => exact absurd ha lastIs_nil
  | append_singleton as x ih =>
    rw [lastIs_snoc] at ha hb
    obtain ⟨h1, rfl⟩ | ⟨h1, ha⟩ := ha <;> obtain ⟨h2, rfl⟩ | ⟨h2, hb⟩ := hb
    · rfl
    · exact absurd h1 h2
    · exact absurd h2 h1
    · exact ih ha hb

theorem lastIs_of_unique {P : Action → Prop} {as : List Action} {a : Action} (hP : P a)
    (hu : ∀ x ∈ as, P x → x = a) : LastIs P as a ↔ a ∈ as := by
  constructor
  · rintro ⟨pre, post, rfl, -⟩; simp
  · intro hm
    induction as using List.reverseRecOn with
    | nil => cases hm
    | append_singleton as x ih =>
      rw [lastIs_snoc]
      by_cases hx : P x
      · exact .inl ⟨hx, (hu x (by simp) hx).symm⟩
      · refine .inr ⟨hx, ih (fun y hy => hu y (by simp [hy])) ?_⟩
        rw [List.mem_append, List.mem_singleton] at hm
        obtain hm | rfl := hm
        · exact hm
        · exact absurd hP hx

/-! ## Association lists -/

section
variable {κ α : Type} [DecidableEq κ]

theorem mem_del {k : κ} {l : List (κ × α)} {x : κ × α} : x ∈ del k l ↔ x.1 ≠ k ∧ x ∈ l := by
  simp [del, and_comm]

theorem mem_put {k : κ} {v : α} {l : List (κ × α)} {x : κ × α} :
    x ∈ put k v l ↔ x = (k, v) ∨ (x.1 ≠ k ∧ x ∈ l) := by
  simp [put, mem_del]

/-- No key occurs twice. -/
def Keys (l : List (κ × α)) : Prop := (l.map (·.1)).Nodup

theorem keys_del {k : κ} {l : List (κ × α)} (h : Keys l) : Keys (del k l) :=
  List.Nodup.sublist (List.Sublist.map _ List.filter_sublist) h

theorem keys_put {k : κ} {v : α} {l : List (κ × α)} (h : Keys l) : Keys (put k v l) := by
  unfold Keys put
  rw [List.map_cons, List.nodup_cons]
  refine ⟨?_, keys_del h⟩
  simp [mem_del]

theorem keys_filter {p : κ × α → Bool} {l : List (κ × α)} (h : Keys l) : Keys (l.filter p) :=
  List.Nodup.sublist (List.Sublist.map _ List.filter_sublist) h

theorem keys_unique {l : List (κ × α)} (h : Keys l) {k : κ} {v w : α} (hv : (k, v) ∈ l) (hw : (k, w) ∈ l) :
    v = w := by
  have := List.inj_on_of_nodup_map h hv hw rfl
  exact (Prod.mk.inj this).2
end

/-! ## Reconciled states -/

structure WF (s : State) : Prop where
  txns : Keys s.txns
  domains : Keys s.domains
  adds : Keys s.adds
  removes : Keys s.removes
  disjoint : ∀ k f t, (k, f) ∈ s.adds → (k, t) ∉ s.removes

theorem wf_empty : WF .empty := by
  constructor <;> simp [State.empty, Keys]

theorem wf_apply {s : State} (h : WF s) (a : Action) : WF (s.apply a) := by
  obtain ⟨h1, h2, h3, h4, h5⟩ := h
  cases a with
  | protocol p => exact ⟨h1, h2, h3, h4, h5⟩
  | metadata m => exact ⟨h1, h2, h3, h4, h5⟩
  | txn app t => exact ⟨keys_put h1, h2, h3, h4, h5⟩
  | domain d v =>
    cases v with
    | none => exact ⟨h1, keys_del h2, h3, h4, h5⟩
    | some v => exact ⟨h1, keys_put h2, h3, h4, h5⟩
  | add k f =>
    refine ⟨h1, h2, keys_put h3, keys_del h4, ?_⟩
    intro k' f' t
    simp only [State.apply, mem_put, mem_del, Prod.mk.injEq]
    rintro (⟨rfl, rfl⟩ | ⟨hk, hm⟩) ⟨hk', hm'⟩
    · exact hk' rfl
    · exact h5 _ _ _ hm hm'
  | remove k t =>
    refine ⟨h1, h2, keys_del h3, keys_put h4, ?_⟩
    intro k' f' t
    simp only [State.apply, mem_put, mem_del, Prod.mk.injEq]
    rintro ⟨hk', hm'⟩ (⟨rfl, rfl⟩ | ⟨hk, hm⟩)
    · exact hk' rfl
    · exact h5 _ _ _ hm' hm
  | other => exact ⟨h1, h2, h3, h4, h5⟩

theorem wf_applyAll {s : State} (h : WF s) (as : List Action) : WF (s.applyAll as) := by
  unfold State.applyAll
  induction as generalizing s with
  | nil => exact h
  | cons a as ih => exact ih (wf_apply h a)

/-- The state is what the actions say. Tombstones and transactions may have expired. -/
structure Agree (s : State) (as : List Action) : Prop where
  protocol : ∀ p, s.protocol = some p ↔ LastIs IsProtocol as (.protocol p)
  metadata : ∀ m, s.metadata = some m ↔ LastIs IsMetadata as (.metadata m)
  txns : ∀ a t, (a, t) ∈ s.txns → LastIs (IsTxn a) as (.txn a t)
  domains : ∀ d v, (d, v) ∈ s.domains ↔ LastIs (IsDomain d) as (.domain d (some v))
  adds : ∀ k f, (k, f) ∈ s.adds ↔ LastIs (IsFile k) as (.add k f)
  removes : ∀ k t, (k, t) ∈ s.removes → LastIs (IsFile k) as (.remove k t)
  txnsKept : ∀ a t, LastIs (IsTxn a) as (.txn a t) → t.updated = none → (a, t) ∈ s.txns
  removesKept : ∀ k, LastIs (IsFile k) as (.remove k none) → (k, none) ∈ s.removes

theorem agree_empty : Agree .empty [] := by
  constructor <;> simp [State.empty, lastIs_nil]

theorem agree_apply {s : State} {as : List Action} (h : Agree s as) (a : Action) :
    Agree (s.apply a) (as ++ [a]) := by
  obtain ⟨h1, h2, h3, h4, h5, h6, h7, h8⟩ := h
  cases a with
  | domain d v =>
    cases v <;> constructor <;> intros <;>
      simp only [State.apply, lastIs_snoc, IsProtocol, IsMetadata, IsTxn, IsDomain, IsFile, mem_put, mem_del] at * <;>
      grind
  | remove k0 t0 =>
    refine ⟨?_, ?_, ?_, ?_, ?_, ?_, ?_, ?_⟩ <;> intros
    all_goals simp only [State.apply, lastIs_snoc, IsProtocol, IsMetadata, IsTxn, IsDomain, IsFile, mem_put,
      mem_del, Action.remove.injEq, Prod.mk.injEq, reduceCtorEq, exists_false, false_and, or_false, false_or,
      not_false_eq_true, true_and, and_false] at *
    · grind
    · grind
    · grind
    · grind
    · rename_i k f
      rw [h5]
      constructor
      · rintro ⟨h, h'⟩
        exact ⟨by rintro ⟨t, rfl, -⟩; exact h rfl, h'⟩
      · rintro ⟨h, h'⟩
        exact ⟨by rintro rfl; exact h ⟨_, rfl, rfl⟩, h'⟩
    · rename_i k t h
      obtain ⟨rfl, rfl⟩ | ⟨hk, hm⟩ := h
      · exact .inl ⟨⟨_, rfl, rfl⟩, rfl, rfl⟩
      · exact .inr ⟨by rintro ⟨t, rfl, -⟩; exact hk rfl, h6 _ _ hm⟩
    · grind
    · rename_i k h
      obtain ⟨-, rfl, rfl⟩ | ⟨hk, hm⟩ := h
      · exact .inl ⟨rfl, rfl⟩
      · exact .inr ⟨by rintro rfl; exact hk ⟨_, rfl, rfl⟩, h8 _ hm⟩
  | _ =>
    constructor <;> intros <;>
      simp only [State.apply, lastIs_snoc, IsProtocol, IsMetadata, IsTxn, IsDomain, IsFile, mem_put, mem_del] at * <;>
      first
      | grind
      | (rename_i h
         obtain ⟨-, h⟩ | ⟨hk, hm⟩ := h
         · cases h
         · exact ⟨fun he => hk (.inl ⟨_, by rw [he]⟩), h8 _ hm⟩)

theorem agree_applyAll {s : State} {as : List Action} (h : Agree s as) (bs : List Action) :
    Agree (s.applyAll bs) (as ++ bs) := by
  unfold State.applyAll
  induction bs generalizing s as with
  | nil => simpa using h
  | cons b bs ih =>
    have := ih (agree_apply h b)
    simpa using this

theorem lastIs_iff_mem {P : Action → Prop} {as : List Action} {a : Action} (hP : P a)
    (hu : ∀ x ∈ as, ∀ y ∈ as, P x → P y → x = y) : LastIs P as a ↔ a ∈ as := by
  constructor
  · rintro ⟨pre, post, rfl, -⟩; simp
  · intro h
    exact (lastIs_of_unique hP fun x hx hPx => hu x hx a h hPx hP).mpr h

/-- The rows of a checkpoint, up to order and rows without effect. -/
def IsRows (s : State) (rows : List Action) : Prop :=
  ∃ p m, s.protocol = some p ∧ s.metadata = some m ∧
    ∀ a, a ≠ .other → (a ∈ rows ↔ (a = .protocol p ∨ a = .metadata m ∨ a ∈ txnRows s ∨ a ∈ domainRows s ∨
      a ∈ removeRows s ∨ a ∈ addRows s))

theorem isRows_V1 {s : State} {rows : List Action} (h : s.rowsV1 = some rows) : IsRows s rows := by
  unfold State.rowsV1 at h
  split at h
  · rename_i p m hp hm
    cases h
    refine ⟨p, m, hp, hm, fun a _ => ?_⟩
    simp only [List.mem_cons, List.mem_append, or_assoc]
  · cases h

theorem isRows_V2 {s : State} {rows : List Action} (h : s.rowsV2 = some rows) : IsRows s rows := by
  unfold State.rowsV2 at h
  split at h
  · rename_i p m hp hm
    cases h
    refine ⟨p, m, hp, hm, fun a ha => ?_⟩
    simp only [List.mem_cons, List.mem_append, or_assoc, ha, false_or, List.not_mem_nil]
    grind
  · cases h

/-- The order of the rows does not matter: replaying the rows of a checkpoint gives the state. -/
theorem rows_spec {s : State} {rows as : List Action} (hw : WF s) (h : Agree s as) (hr : IsRows s rows) :
    Agree (State.empty.applyAll rows) as := by
  obtain ⟨p, m, hp, hm, hrows⟩ := hr
  have hR : Agree (State.empty.applyAll rows) rows := by simpa using agree_applyAll agree_empty rows
  have m1 : ∀ q, .protocol q ∈ rows ↔ q = p := by
    intro q; rw [hrows _ (by simp)]; simp [txnRows, domainRows, removeRows, addRows]
  have m2 : ∀ q, .metadata q ∈ rows ↔ q = m := by
    intro q; rw [hrows _ (by simp)]; simp [txnRows, domainRows, removeRows, addRows]
  have m3 : ∀ a t, .txn a t ∈ rows ↔ (a, t) ∈ s.txns := by
    intro a t; rw [hrows _ (by simp)]; simp [txnRows, domainRows, removeRows, addRows]
  have m4 : ∀ d v, .domain d v ∈ rows ↔ ∃ x, v = some x ∧ (d, x) ∈ s.domains := by
    intro d v; rw [hrows _ (by simp)]; simp [txnRows, domainRows, removeRows, addRows]; grind
  have m5 : ∀ k f, .add k f ∈ rows ↔ (k, f) ∈ s.adds := by
    intro k f; rw [hrows _ (by simp)]; simp [txnRows, domainRows, removeRows, addRows]
  have m6 : ∀ k t, .remove k t ∈ rows ↔ (k, t) ∈ s.removes := by
    intro k f; rw [hrows _ (by simp)]; simp [txnRows, domainRows, removeRows, addRows]
  have u5 : ∀ k, ∀ x ∈ rows, ∀ y ∈ rows, IsFile k x → IsFile k y → x = y := by
    rintro k x hx y hy (⟨f, rfl⟩ | ⟨t, rfl⟩) (⟨f', rfl⟩ | ⟨t', rfl⟩)
    · rw [m5] at hx hy; rw [keys_unique hw.adds hx hy]
    · rw [m5] at hx; rw [m6] at hy; exact absurd hy (hw.disjoint _ _ _ hx)
    · rw [m5] at hy; rw [m6] at hx; exact absurd hx (hw.disjoint _ _ _ hy)
    · rw [m6] at hx hy; rw [keys_unique hw.removes hx hy]
  constructor
  · intro q
    rw [hR.protocol, lastIs_iff_mem ⟨q, rfl⟩, m1, ← h.protocol, hp]
    · simp [eq_comm]
    · rintro x hx y hy ⟨a, rfl⟩ ⟨b, rfl⟩
      rw [m1] at hx hy; rw [hx, hy]
  · intro q
    rw [hR.metadata, lastIs_iff_mem ⟨q, rfl⟩, m2, ← h.metadata, hm]
    · simp [eq_comm]
    · rintro x hx y hy ⟨a, rfl⟩ ⟨b, rfl⟩
      rw [m2] at hx hy; rw [hx, hy]
  · intro a t hat
    have hat := hR.txns a t hat
    rw [lastIs_iff_mem ⟨t, rfl⟩, m3] at hat
    · exact h.txns a t hat
    · rintro x hx y hy ⟨t, rfl⟩ ⟨t', rfl⟩
      rw [m3] at hx hy; rw [keys_unique hw.txns hx hy]
  · intro d v
    rw [hR.domains, lastIs_iff_mem ⟨some v, rfl⟩, m4, ← h.domains]
    · grind
    · rintro x hx y hy ⟨t, rfl⟩ ⟨t', rfl⟩
      rw [m4] at hx hy
      obtain ⟨x, rfl, hx⟩ := hx
      obtain ⟨y, rfl, hy⟩ := hy
      rw [keys_unique hw.domains hx hy]
  · intro k f
    rw [hR.adds, lastIs_iff_mem (.inl ⟨f, rfl⟩) (u5 k), m5, ← h.adds]
  · intro k t hkt
    have hkt := hR.removes k t hkt
    rw [lastIs_iff_mem (.inr ⟨t, rfl⟩) (u5 k), m6] at hkt
    exact h.removes k t hkt
  · intro a t ht hn
    have hm := (m3 a t).mpr (h.txnsKept a t ht hn)
    refine hR.txnsKept a t ?_ hn
    rw [lastIs_iff_mem ⟨t, rfl⟩]
    · exact hm
    · rintro x hx y hy ⟨t, rfl⟩ ⟨t', rfl⟩
      rw [m3] at hx hy; rw [keys_unique hw.txns hx hy]
  · intro k hk
    have hm := (m6 k none).mpr (h.removesKept k hk)
    refine hR.removesKept k ?_
    rw [lastIs_iff_mem (.inr ⟨none, rfl⟩) (u5 k)]
    exact hm

theorem prune_spec {s s' : State} {now : Int} {as : List Action} (hw : WF s) (h : Agree s as)
    (hp : s.prune now = some s') : WF s' ∧ Agree s' as := by
  unfold State.prune at hp
  split at hp
  · cases hp
  · rename_i m hm
    cases hp
    refine ⟨⟨keys_filter hw.txns, hw.domains, hw.adds, keys_filter hw.removes, ?_⟩,
      ⟨h.protocol, h.metadata, ?_, h.domains, h.adds, ?_, ?_, ?_⟩⟩
    · intro k f t hk ht
      exact hw.disjoint k f t hk (List.mem_of_mem_filter ht)
    · exact fun a t hat => h.txns a t (List.mem_of_mem_filter hat)
    · exact fun a t hat => h.removes a t (List.mem_of_mem_filter hat)
    · exact fun a t hat hn => List.mem_filter.mpr ⟨h.txnsKept a t hat hn, by simp [hn, unexpired]⟩
    · exact fun k hk => List.mem_filter.mpr ⟨h.removesKept k hk, by simp [unexpired]⟩

/-! ## Runs of commits -/

/-- `contiguous` accepts exactly the versions from `expected` to `stop`, ignoring others. -/
theorem contiguous_iff {start stop : Nat} {vs : List Nat} {e : Nat} (hse : start ≤ e) (hes : e ≤ stop + 1) :
    contiguous start stop vs e = true ↔
      vs.filter (fun v => start ≤ v ∧ v ≤ stop) = List.range' e (stop + 1 - e) := by
  induction vs generalizing e with
  | nil =>
    simp only [contiguous, beq_iff_eq, List.filter_nil]
    constructor
    · intro h; subst h; simp
    · intro h
      have := congrArg List.length h
      simp at this
      omega
  | cons v vs ih =>
    unfold contiguous
    split
    · rename_i h
      rw [ih hse hes, List.filter_cons_of_neg]
      simp; omega
    · rename_i h
      rw [List.filter_cons_of_pos (by simp; omega)]
      split
      · rename_i hne
        simp only [Bool.false_eq_true, false_iff]
        intro he
        obtain ⟨n, hn⟩ : ∃ n, stop + 1 - e = n + 1 := ⟨stop + 1 - e - 1, by
          have := congrArg List.length he
          simp at this
          omega⟩
        rw [hn, List.range'_succ] at he
        simp at he
        exact hne he.1
      · rename_i heq
        have heq : v = e := by omega
        subst heq
        obtain ⟨n, hn⟩ : ∃ n, stop + 1 - v = n + 1 := ⟨stop - v, by omega⟩
        have hn' : stop + 1 - (v + 1) = n := by omega
        rw [ih (by omega) (by omega), hn, hn', List.range'_succ]
        simp

/-! ## Histories -/

/-- All actions of a list of commits. -/
def acts (h : List (Int × List Action)) : List Action := h.flatMap (·.2)

/-- The stored commits are those of the history. -/
def Faithful (h : List (Int × List Action)) (cs : List Commit) : Prop :=
  ∀ c ∈ cs, h[c.version]? = some (c.ts, c.actions)

theorem slice_actions {h : List (Int × List Action)} {cs : List Commit} (hf : Faithful h cs) {a n : Nat}
    (hv : cs.map (·.version) = List.range' a n) :
    acts (h.take a) ++ cs.flatMap (·.actions) = acts (h.take (a + n)) ∧ (0 < n → a + n ≤ h.length) := by
  induction cs generalizing a n with
  | nil =>
    cases n with
    | zero => simp [acts]
    | succ n => simp [List.range'_succ] at hv
  | cons c cs ih =>
    cases n with
    | zero => simp at hv
    | succ n =>
      rw [List.range'_succ, List.map_cons] at hv
      obtain ⟨h1, h2⟩ := List.cons.inj hv
      have hc := hf c (by simp)
      rw [h1] at hc
      have hlt := (List.getElem?_eq_some_iff.mp hc).1
      obtain ⟨i1, i2⟩ := ih (fun x hx => hf x (by simp [hx])) h2
      constructor
      · rw [show a + (n + 1) = a + 1 + n from by omega, ← i1]
        rw [List.take_add_one, hc]
        simp [acts]
      · intro _
        rcases Nat.eq_zero_or_pos n with rfl | hn
        · omega
        · have := i2 hn; omega

theorem filter_map_version {cs : List Commit} {p : Nat → Bool} :
    (cs.filter fun c => p c.version).map (·.version) = (cs.map (·.version)).filter p := by
  rw [List.filter_map]; rfl

theorem replayCommits_spec {h : List (Int × List Action)} {s s' : State} {cs : List Commit} {start stop : Nat}
    (hf : Faithful h cs) (hse : start ≤ stop + 1) (hw : WF s) (ha : Agree s (acts (h.take start)))
    (hr : replayCommits s cs start stop = some s') :
    WF s' ∧ Agree s' (acts (h.take (stop + 1))) ∧ (start ≤ stop → stop < h.length) := by
  unfold replayCommits at hr
  split at hr
  · rename_i hgt
    cases hr
    have : start = stop + 1 := by omega
    subst this
    exact ⟨hw, ha, by omega⟩
  · rename_i hle
    split at hr
    · rename_i hc
      cases hr
      rw [contiguous_iff (Nat.le_refl _) hse] at hc
      rw [← filter_map_version (p := fun v => decide (start ≤ v ∧ v ≤ stop))] at hc
      obtain ⟨h1, h2⟩ := slice_actions (h := h) (fun c hc => hf c (List.mem_of_mem_filter hc)) hc
      rw [show start + (stop + 1 - start) = stop + 1 by omega] at h1 h2
      refine ⟨wf_applyAll hw _, ?_, fun _ => h2 (by omega)⟩
      rw [← h1]
      exact agree_applyAll ha _
    · cases hr

theorem selectCkpt_mem {cands : List Ckpt} {hint : Option Hint} {c : Ckpt} (h : selectCkpt cands hint = some c) :
    c ∈ cands := by
  unfold selectCkpt at h
  split at h
  · cases h
  · rename_i x xs hs
    have hmem : ∀ y ∈ x :: xs, y ∈ cands := fun y hy => by
      rw [← hs, mem_insSort] at hy; exact hy
    split at h
    · split at h
      · split at h
        · rename_i z hz
          cases h
          exact hmem _ (List.mem_of_find?_eq_some hz)
        · exact hmem _ (List.mem_of_mem_filter (List.mem_of_mem_head? h))
      · cases h; exact hmem _ (by simp)
    · cases h; exact hmem _ (by simp)

/-- The invariant of a log. -/
structure Inv (y : Sys) : Prop where
  commits : Faithful y.history y.store.commits
  nodup : (y.store.commits.map (·.version)).Nodup
  ckpts : ∀ c ∈ y.store.ckpts, c.version < y.history.length ∧
    Agree (State.empty.applyAll c.rows) (acts (y.history.take (c.version + 1)))

theorem inv_init : Inv Sys.init := by
  constructor
  · intro c hc; cases hc
  · simp [Sys.init, Store.empty]
  · intro c hc; cases hc

theorem mem_listCommits {st : Store} {off max : Nat} {c : Commit} :
    c ∈ st.listCommits off max ↔ c ∈ st.commits ∧ off ≤ c.version ∧ c.version ≤ max := by
  simp [Store.listCommits, mem_insSort]

theorem mem_listCkpts {st : Store} {off max : Nat} {c : Ckpt} :
    c ∈ st.listCkpts off max ↔ c ∈ st.ckpts ∧ off ≤ c.version ∧ c.version ≤ max := by
  simp [Store.listCkpts]

theorem checkpointState_spec {y : Sys} (hi : Inv y) {v : Nat} {now : Int} {s : State}
    (h : y.store.checkpointState v now = some s) :
    v < y.history.length ∧ WF s ∧ Agree s (acts (y.history.take (v + 1))) := by
  unfold Store.checkpointState at h
  have hf : Faithful y.history (y.store.listCommits (y.store.offset v) v) :=
    fun c hc => hi.commits c (mem_listCommits.mp hc).1
  cases hb : ((y.store.listCkpts (y.store.offset v) v).insSort
      fun a b => decide (a.version ≤ b.version)).getLast? with
  | none =>
    simp only [hb] at h
    split at h
    · cases h
    · rename_i s0 hs0
      obtain ⟨h1, h2, h3⟩ := replayCommits_spec hf (Nat.zero_le _) wf_empty (by simpa [acts] using agree_empty) hs0
      exact ⟨h3 (Nat.zero_le _), prune_spec h1 h2 h⟩
  | some c =>
    simp only [hb] at h
    have hc := List.mem_of_getLast? hb
    rw [mem_insSort, mem_listCkpts] at hc
    obtain ⟨hc1, -, hc2⟩ := hc
    obtain ⟨hlt, hag⟩ := hi.ckpts c hc1
    split at h
    · cases h
    · rename_i s0 hs0
      obtain ⟨h1, h2, h3⟩ := replayCommits_spec hf (by omega) (wf_applyAll wf_empty _) hag hs0
      refine ⟨?_, prune_spec h1 h2 h⟩
      rcases Nat.lt_or_ge c.version v with hcv | hcv
      · exact h3 hcv
      · omega

theorem mem_putCkpt {st : Store} {c x : Ckpt} (h : x ∈ (st.putCkpt c).ckpts) : x ∈ st.ckpts ∨ x = c := by
  simp only [Store.putCkpt, List.mem_append, List.mem_filter, List.mem_singleton] at h
  obtain ⟨h, -⟩ | h := h
  · exact .inl h
  · exact .inr h

theorem inv_createCkpt {y : Sys} (hi : Inv y) {v : Nat} {now : Int} {v2 : Option Nat} {hinted : Bool} {st : Store}
    (h : y.store.createCkpt v now v2 hinted = some st) : Inv { y with store := st } := by
  unfold Store.createCkpt at h
  split at h
  · cases h
  · rename_i s hs
    obtain ⟨h1, h2, h3⟩ := checkpointState_spec hi hs
    split at h
    · cases h
    · rename_i rows hrows
      have hr : IsRows s rows := by
        split at hrows
        · exact isRows_V2 hrows
        · exact isRows_V1 hrows
      have hst : st.commits = y.store.commits ∧ st.ckpts = (y.store.putCkpt ⟨v, v2, rows⟩).ckpts := by
        dsimp only at h
        cases h
        split <;> exact ⟨rfl, rfl⟩
      refine ⟨by rw [show ({ y with store := st } : Sys).store.commits = y.store.commits from hst.1]; exact hi.commits,
        by rw [show ({ y with store := st } : Sys).store.commits = y.store.commits from hst.1]; exact hi.nodup, ?_⟩
      intro c hc
      have hc : c ∈ (y.store.putCkpt ⟨v, v2, rows⟩).ckpts := hst.2 ▸ hc
      obtain hc | rfl := mem_putCkpt hc
      · exact hi.ckpts c hc
      · exact ⟨h1, rows_spec h2 h3 hr⟩

theorem inv_copyClassic {y : Sys} (hi : Inv y) {c : Ckpt} {st : Store} (hc : c ∈ y.store.ckpts)
    (h : y.store.copyClassic c = some st) : Inv { y with store := st } := by
  unfold Store.copyClassic at h
  split at h
  · cases h
  · rename_i rows hrows
    cases h
    refine ⟨hi.commits, hi.nodup, ?_⟩
    intro x hx
    obtain hx | rfl := mem_putCkpt hx
    · exact hi.ckpts x hx
    · exact ⟨(hi.ckpts c hc).1, rows_spec (wf_applyAll wf_empty _) (hi.ckpts c hc).2 (isRows_V1 hrows)⟩

/-- `ensureClassic` leaves the store alone or copies an existing checkpoint of that version. -/
theorem ensureClassic_cases {st st' : Store} {v : Nat} (h : st.ensureClassic v = some st') :
    st' = st ∨ ∃ c ∈ st.ckpts, c.version = v ∧ st.copyClassic c = some st' := by
  unfold Store.ensureClassic at h
  have key : ∀ {st' : Store}, (match (st.ckpts.insSort ckptBefore).find? fun c => decide (c.version = v) with
        | none => some st
        | some c => st.copyClassic c) = some st' →
      st' = st ∨ ∃ c ∈ st.ckpts, c.version = v ∧ st.copyClassic c = some st' := by
    intro st' h
    split at h
    · cases h; exact .inl rfl
    · rename_i c hc
      have hm := List.mem_of_find?_eq_some hc
      rw [mem_insSort] at hm
      have hv := List.find?_some hc
      exact .inr ⟨c, hm, by simpa using hv, h⟩
  split at h
  · cases h; exact .inl rfl
  · split at h
    · split at h
      · rename_i heq
        split at h
        · cases h
        · rename_i c hc
          have hm := List.mem_of_find?_eq_some hc
          have hv := List.find?_some hc
          simp at hv
          exact .inr ⟨c, hm, by rw [hv.1, heq], h⟩
      · exact key h
    · exact key h

theorem inv_deleteBefore {y : Sys} (hi : Inv y) (v : Nat) : Inv { y with store := y.store.deleteBefore v } := by
  refine ⟨fun c hc => hi.commits c (List.mem_of_mem_filter hc), ?_, fun c hc => hi.ckpts c (List.mem_of_mem_filter hc)⟩
  exact List.Nodup.sublist (List.Sublist.map _ List.filter_sublist) hi.nodup

theorem inv_cleanup {y : Sys} (hi : Inv y) {l : Nat} {c : Int} {st : Store}
    (h : y.store.cleanup l c = some st) : Inv { y with store := st } := by
  unfold Store.cleanup at h
  split at h
  · cases h; exact hi
  · rename_i v hv
    split at h
    · cases h
    · rename_i st' hst'
      cases h
      obtain rfl | ⟨c, hc, -, hcopy⟩ := ensureClassic_cases hst'
      · exact inv_deleteBefore hi v
      · exact inv_deleteBefore (inv_copyClassic hi hc hcopy) v

theorem compact_same {st st' : Store} {a b : Nat} {t : Int} (h : st.compact a b t = some st') :
    st'.commits = st.commits ∧ st'.ckpts = st.ckpts ∧ st'.hint = st.hint := by
  unfold Store.compact at h
  dsimp only at h
  split at h
  · split at h <;> cases h <;> exact ⟨rfl, rfl, rfl⟩
  · cases h

theorem inv_step {y : Sys} (hi : Inv y) (e : Ev) : Inv (y.step e) := by
  cases e with
  | commit ts as =>
    refine ⟨?_, ?_, ?_⟩
    · intro c hc
      simp only [Sys.step, List.mem_append, List.mem_singleton] at hc ⊢
      obtain hc | rfl := hc
      · have := hi.commits c hc
        rw [List.getElem?_append_left (List.getElem?_eq_some_iff.mp this).1]
        exact this
      · simp
    · simp only [Sys.step, List.map_append, List.map_cons, List.map_nil]
      rw [List.nodup_append]
      refine ⟨hi.nodup, by simp, ?_⟩
      intro a ha b hb
      rw [List.mem_map] at ha
      obtain ⟨c, hc, rfl⟩ := ha
      have := (List.getElem?_eq_some_iff.mp (hi.commits c hc)).1
      simp at hb
      omega
    · intro c hc
      obtain ⟨h1, h2⟩ := hi.ckpts c hc
      simp only [Sys.step, List.length_append, List.length_singleton]
      refine ⟨by omega, ?_⟩
      rw [List.take_append_of_le_length (by omega)]
      exact h2
  | checkpoint v now v2 hinted =>
    simp only [Sys.step]
    cases h : y.store.createCkpt v now v2 hinted with
    | none => exact hi
    | some st => exact inv_createCkpt hi h
  | compact a b t =>
    simp only [Sys.step]
    cases h : y.store.compact a b t with
    | none => exact hi
    | some st =>
      obtain ⟨h1, h2, -⟩ := compact_same h
      refine ⟨?_, ?_, ?_⟩
      · simp only [Option.getD_some, h1]; exact hi.commits
      · simp only [Option.getD_some, h1]; exact hi.nodup
      · simp only [Option.getD_some, h2]; exact hi.ckpts
  | cleanup l c =>
    simp only [Sys.step]
    cases h : y.store.cleanup l c with
    | none => exact hi
    | some st => exact inv_cleanup hi h

theorem inv_run (es : List Ev) : Inv (Sys.run es Sys.init) := by
  unfold Sys.run
  have : ∀ y, Inv y → Inv (es.foldl Sys.step y) := by
    induction es with
    | nil => exact fun y h => h
    | cons e es ih => exact fun y h => ih _ (inv_step h e)
  exact this _ inv_init

end Verif.Delta.Log
