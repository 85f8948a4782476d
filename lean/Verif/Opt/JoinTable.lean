import Verif.Opt.JoinVisit

/-! # The invariant of the join order search -/

namespace Verif.Opt.Spec

/-- The row count estimates stay below infinity: there is a set of finite numbers that contains the estimates of the
relations and is closed under the estimates of joins. -/
structure FiniteEstimates (c : Costs) (fin : c.F → Prop) : Prop where
  leaf : ∀ i x, c.leafCard i = .ok x → fin x
  join : ∀ a b es, fin a → fin b → fin (c.joinCard a b es)
  cross : ∀ a b, fin a → fin b → fin (c.crossCard a b)
  lt : ∀ a, fin a → c.lt a c.inf = true

end Verif.Opt.Spec

namespace Verif.Opt

set_option linter.unusedSectionVars false

open JoinSet

variable {α : Type}

/-- What an entry of the DP table says. The list of edges of a join is only known to be complete if the estimates are
finite (`strict`). -/
def Entry (g : Graph α) (c : Costs) (strict : Prop) (fin : c.F → Prop) (t : Table c.F) (S : JoinSet) (d : DP c.F) :
    Prop :=
  d.set = S ∧ S ≠ 0#64 ∧ (∀ i, Mem i S → i < g.relations.length) ∧ (strict → fin d.card) ∧
  match d.kind with
  | .leaf id => ∀ j, Mem j S ↔ j = id
  | .join l r es => l ||| r = S ∧ (∀ i, Mem i l → ¬ Mem i r) ∧ (t.get l).isSome = true ∧ (t.get r).isSome = true ∧
      (strict → es = connecting g l r)

def Good (g : Graph α) (c : Costs) (strict : Prop) (fin : c.F → Prop) (t : Table c.F) : Prop :=
  ∀ S d, t.get S = some d → Entry g c strict fin t S d

section

variable {g : Graph α} {c : Costs} {strict : Prop} {fin : c.F → Prop} {t : Table c.F}

theorem get_cons {F : Type} (k S : JoinSet) (d : DP F) (t : Table F) :
    Table.get ((k, d) :: t) S = if k = S then some d else t.get S := rfl

theorem isSome_cons {F : Type} {k S : JoinSet} {d : DP F} {t : Table F} (h : (t.get S).isSome = true) :
    (Table.get ((k, d) :: t) S).isSome = true := by
  rw [get_cons]
  split
  · rfl
  · exact h

theorem Good.cons (h : Good g c strict fin t) {k : JoinSet} {d : DP c.F}
    (hd : Entry g c strict fin ((k, d) :: t) k d) : Good g c strict fin ((k, d) :: t) := by
  intro S e he
  rw [get_cons] at he
  split at he
  · rename_i hk
    cases he
    subst hk
    exact hd
  · obtain ⟨h1, h2, h3, h4, h5⟩ := h S e he
    refine ⟨h1, h2, h3, h4, ?_⟩
    split
    · rename_i id hk
      rw [hk] at h5
      exact h5
    · rename_i l r es hk
      rw [hk] at h5
      obtain ⟨a, b, c1, c2, e1⟩ := h5
      exact ⟨a, b, isSome_cons c1, isSome_cons c2, e1⟩

theorem connects_comm (l r : JoinSet) (e : Edge α) : connects l r e = connects r l e := by
  unfold connects
  rw [BitVec.or_comm]
  congr 1
  rw [Bool.and_comm]

theorem connecting_comm (g : Graph α) (l r : JoinSet) : connecting g l r = connecting g r l := by
  unfold connecting
  have h : isDisjoint l r = isDisjoint r l := by unfold isDisjoint; rw [BitVec.and_comm]
  rw [h]
  have h2 : (fun e : Edge α × Nat => connects l r e.1) = fun e => connects r l e.1 := by
    funext e
    exact connects_comm l r e.1
  rw [h2]

theorem disjoint_of_connecting {l r : JoinSet} (h : connecting g l r ≠ []) : ∀ i, Mem i l → ¬ Mem i r := by
  unfold connecting at h
  split at h
  · exact absurd rfl h
  · rename_i hd
    simp only [Bool.not_eq_true', Bool.not_eq_false] at hd
    exact isDisjoint_iff.1 hd

theorem or_ne_zero {l r : JoinSet} (h : l ≠ 0#64) : l ||| r ≠ 0#64 := by
  intro h0
  apply h
  rw [eq_zero_iff] at h0 ⊢
  intro i hi
  exact h0 i (mem_or.2 (.inl hi))

/-- A join of two entries of the table. -/
theorem Good.join (h : Good g c strict fin t) {l r : JoinSet} {lp rp d : DP c.F} {es : List Nat}
    (hl : t.get l = some lp) (hr : t.get r = some rp) (hd : ∀ i, Mem i l → ¬ Mem i r)
    (hk : d.kind = .join l r es ∨ d.kind = .join r l es) (hs : d.set = l ||| r)
    (hf : strict → fin d.card) (he : strict → es = connecting g l r) :
    Good g c strict fin ((l ||| r, d) :: t) := by
  obtain ⟨_, l2, l3, _⟩ := h l lp hl
  obtain ⟨_, r2, r3, _⟩ := h r rp hr
  apply h.cons
  refine ⟨hs, or_ne_zero l2, ?_, hf, ?_⟩
  · intro i hi
    exact (mem_or.1 hi).elim (l3 i) (r3 i)
  · rcases hk with hk | hk
    · rw [hk]
      exact ⟨rfl, hd, isSome_cons (by simp [hl]), isSome_cons (by simp [hr]), he⟩
    · rw [hk]
      exact ⟨BitVec.or_comm r l, fun i h1 h2 => hd i h2 h1, isSome_cons (by simp [hr]), isSome_cons (by simp [hl]),
        fun h => (he h).trans (connecting_comm g l r)⟩

theorem emitPair_good (hc : strict → Spec.FiniteEstimates c fin) {l r : JoinSet} {s : St c.F}
    (h : Good g c strict fin s.table) (hne : connecting g l r ≠ []) :
    Good g c strict fin (emitPair c l r (connecting g l r) s).table := by
  unfold emitPair
  split
  · rename_i lp rp hl hr
    have key : Good g c strict fin ((l ||| r, joinPlan c l r lp rp (connecting g l r)) :: s.table) := by
      apply h.join hl hr (disjoint_of_connecting hne) (es := connecting g l r)
      · unfold joinPlan
        by_cases hlt : c.lt (c.cost rp.cost rp.card lp.cost lp.card (c.joinCard lp.card rp.card (connecting g l r)))
          (c.cost lp.cost lp.card rp.cost rp.card (c.joinCard lp.card rp.card (connecting g l r))) = true
        · right; simp [hlt]
        · left; simp [hlt]
      · unfold joinPlan
        by_cases hlt : c.lt (c.cost rp.cost rp.card lp.cost lp.card (c.joinCard lp.card rp.card (connecting g l r)))
          (c.cost lp.cost lp.card rp.cost rp.card (c.joinCard lp.card rp.card (connecting g l r))) = true
        · simp [hlt, BitVec.or_comm]
        · simp [hlt]
      · intro hs
        exact (hc hs).join _ _ _ ((h l lp hl).2.2.2.1 hs) ((h r rp hr).2.2.2.1 hs)
      · exact fun _ => rfl
    simp only
    split
    · split
      · exact key
      · exact h
    · exact key
  · exact h

/-! ## The recursion -/

/-- An outcome with the invariant, or an error other than having run out of fuel. -/
def Fits (g : Graph α) (c : Costs) (strict : Prop) (fin : c.F → Prop) : Res c.F → Prop
  | .ok (_, s) => Good g c strict fin s.table
  | .error e => e ≠ .fuel

/-- A step of the search keeps the invariant and does not run out of fuel. -/
def Fine (g : Graph α) (c : Costs) (strict : Prop) (fin : c.F → Prop) (f : St c.F → Res c.F) : Prop :=
  ∀ s, Good g c strict fin s.table → Fits g c strict fin (f s)

variable {threshold : Nat}

theorem Fine.ok {f : St c.F → Res c.F} (h : Fine g c strict fin f) {s s' : St c.F} {b : Bool}
    (hs : Good g c strict fin s.table) (hf : f s = .ok (b, s')) : Good g c strict fin s'.table := by
  have := h s hs
  rw [hf] at this
  exact this

theorem Fine.err {f : St c.F → Res c.F} (h : Fine g c strict fin f) {s : St c.F} {e : Err}
    (hs : Good g c strict fin s.table) (hf : f s = .error e) : e ≠ .fuel := by
  have := h s hs
  rw [hf] at this
  exact this

theorem fine_tryEmit (hc : strict → Spec.FiniteEstimates c fin) {l r : JoinSet} (hne : connecting g l r ≠ []) :
    Fine g c strict fin (tryEmit threshold c l r (connecting g l r)) := by
  intro s hs
  unfold tryEmit
  by_cases h : s.emits + 1 > threshold
  · simp only [h, if_true]
    exact hs
  · simp only [h, if_false]
    exact emitPair_good hc (s := { s with emits := s.emits + 1 }) hs hne

theorem fine_emit (hc : strict → Spec.FiniteEstimates c fin) (l r : JoinSet) :
    Fine g c strict fin fun s => if (connecting g l r).isEmpty then Except.ok (true, s)
      else tryEmit threshold c l r (connecting g l r) s := by
  intro s hs
  by_cases h : (connecting g l r).isEmpty = true
  · simp only [h, if_true]
    exact hs
  · simp only [h]
    exact fine_tryEmit hc (by simpa using h) s hs

theorem fine_forEach {f : JoinSet → St c.F → Res c.F} {l : List JoinSet}
    (h : ∀ u ∈ l, Fine g c strict fin (f u)) : Fine g c strict fin (forEach f l) := by
  induction l with
  | nil => exact fun s hs => hs
  | cons u us ih =>
    intro s hs
    unfold forEach
    cases hf : f u s with
    | error e => exact (h u (by simp)).err hs hf
    | ok p =>
      obtain ⟨b, s'⟩ := p
      have hs' := (h u (by simp)).ok hs hf
      cases b with
      | false => exact hs'
      | true => exact ih (fun v hv => h v (by simp [hv])) s' hs'

theorem fine_forUnions {f : JoinSet → St c.F → Res c.F} {ns : List JoinSet}
    (h : ∀ u, Fine g c strict fin (f u)) : Fine g c strict fin (forUnions ns f) := by
  intro s hs
  unfold forUnions
  by_cases h1 : ns.isEmpty = true
  · simp only [h1, if_true]; exact hs
  · simp only [h1]
    by_cases h2 : ns.length ≥ 64
    · simp [h2, Fits]
    · simp only [h2, if_false, Bool.false_eq_true]
      exact fine_forEach (fun u _ => h u) s hs

theorem fine_cmpStep (hc : strict → Spec.FiniteEstimates c fin) (l r u : JoinSet) :
    Fine g c strict fin (cmpStep g threshold c l r u) := by
  intro s hs
  unfold cmpStep
  simp only
  split
  · exact fine_emit hc l (r ||| u) s hs
  · exact hs

/-! ## The neighbourhood is made of non-empty sets outside of the forbidden one -/

theorem mem_dedup {x : JoinSet} {l : List JoinSet} (h : x ∈ dedup l) : x ∈ l := by
  induction l with
  | nil => exact h
  | cons a l ih =>
    cases l with
    | nil => exact h
    | cons b l =>
      simp only [dedup] at h
      split at h
      · exact List.mem_cons_of_mem _ (ih h)
      · rcases List.mem_cons.1 h with rfl | h
        · simp
        · exact List.mem_cons_of_mem _ (ih h)

theorem mem_minimal {x : JoinSet} {l res : List JoinSet} (h : x ∈ minimal l res) : x ∈ l ∨ x ∈ res := by
  induction l generalizing res with
  | nil => exact .inr h
  | cons a l ih =>
    simp only [minimal] at h
    split at h
    · rcases ih h with h | h
      · exact .inl (by simp [h])
      · exact .inr h
    · rcases ih h with h | h
      · exact .inl (by simp [h])
      · rcases List.mem_append.1 h with h | h
        · exact .inr h
        · exact .inl (by simp at h; simp [h])

theorem mem_neighbors {x nodes forbidden : JoinSet} (h : x ∈ neighbors g nodes forbidden) :
    x ≠ 0#64 ∧ ∀ i, Mem i x → ¬ Mem i forbidden := by
  unfold neighbors at h
  obtain ⟨h1, h2⟩ := List.mem_filter.1 h
  refine ⟨?_, isDisjoint_iff.1 h2⟩
  unfold minimize at h1
  rw [mem_insSort] at h1
  rcases mem_minimal h1 with h3 | h3
  · have h4 := mem_dedup h3
    rw [mem_insSort] at h4
    unfold candidates at h4
    obtain ⟨e, _, he⟩ := List.mem_flatMap.1 h4
    rcases List.mem_append.1 he with he | he
    · split at he
      · rename_i hx
        simp only [Bool.and_eq_true, Bool.not_eq_true', beq_eq_false_iff_ne] at hx
        simp only [List.mem_singleton] at he
        subst he
        exact hx.1.2
      · cases he
    · split at he
      · rename_i hx
        simp only [Bool.and_eq_true, Bool.not_eq_true', beq_eq_false_iff_ne] at hx
        simp only [List.mem_singleton] at he
        subst he
        exact hx.1.2
      · cases he
  · cases h3

theorem mem_unionAll {ns : List JoinSet} {i : Nat} : Mem i (unionAll ns) ↔ ∃ n ∈ ns, Mem i n := by
  have key : ∀ (l : List JoinSet) (a : JoinSet), Mem i (l.foldl (· ||| ·) a) ↔ Mem i a ∨ ∃ n ∈ l, Mem i n := by
    intro l
    induction l with
    | nil => simp
    | cons n l ih =>
      intro a
      rw [List.foldl_cons, ih, mem_or]
      constructor
      · rintro ((h | h) | ⟨m, h1, h2⟩)
        · exact .inl h
        · exact .inr ⟨n, by simp, h⟩
        · exact .inr ⟨m, by simp [h1], h2⟩
      · rintro (h | ⟨m, h1, h2⟩)
        · exact .inl (.inl h)
        · rcases List.mem_cons.1 h1 with rfl | h1
          · exact .inl (.inr h2)
          · exact .inr ⟨m, h1, h2⟩
  unfold unionAll
  rw [key]
  simp

theorem forbidden_grows {nodes forbidden : JoinSet} (h : (neighbors g nodes forbidden).isEmpty ≠ true) :
    forbidden.cardinality < (forbidden ||| unionAll (neighbors g nodes forbidden)).cardinality := by
  have hne : neighbors g nodes forbidden ≠ [] := by simpa using h
  obtain ⟨x, hx⟩ := List.exists_mem_of_ne_nil _ hne
  obtain ⟨h1, h2⟩ := mem_neighbors hx
  have : ∃ i, Mem i x := Classical.byContradiction fun hno => h1 (eq_zero_iff.2 fun i hi => hno ⟨i, hi⟩)
  obtain ⟨i, hi⟩ := this
  exact card_lt_of_ssubset (fun j hj => mem_or.2 (.inl hj)) (mem_or.2 (.inr (mem_unionAll.2 ⟨x, hx, hi⟩))) (h2 i hi)

theorem fine_cmpRec (hc : strict → Spec.FiniteEstimates c fin) (k : Nat) (l r forbidden : JoinSet)
    (hk : 65 ≤ k + forbidden.cardinality) : Fine g c strict fin (cmpRec g threshold c k l r forbidden) := by
  induction k generalizing r forbidden with
  | zero =>
    have := card_le forbidden
    omega
  | succ k ih =>
    intro s hs
    unfold cmpRec
    simp only
    by_cases he : (neighbors g r forbidden).isEmpty = true
    · simp only [he, if_true]; exact hs
    · simp only [he]
      have hg := forbidden_grows he
      have f1 := fine_forUnions (ns := neighbors g r forbidden) (fine_cmpStep (g := g) (threshold := threshold) hc l r)
      cases hf : forUnions (neighbors g r forbidden) (cmpStep g threshold c l r) s with
      | error e => exact f1.err hs hf
      | ok p =>
        obtain ⟨b, s'⟩ := p
        have hs' := f1.ok hs hf
        cases b with
        | false => exact hs'
        | true => exact fine_forUnions (fun u => ih (r ||| u) _ (by omega)) s' hs'

theorem fine_csgLoop (hc : strict → Spec.FiniteEstimates c fin) (k : Nat) (hk : 65 ≤ k) (nodes forbidden : JoinSet)
    (ns : List JoinSet) (processed : JoinSet) :
    Fine g c strict fin (csgLoop g threshold c k nodes forbidden ns processed) := by
  induction ns generalizing processed with
  | nil => exact fun s hs => hs
  | cons n ns ih =>
    intro s hs
    unfold csgLoop
    simp only
    have f1 := fine_emit (g := g) (threshold := threshold) hc nodes n
    have f2 := fine_cmpRec (g := g) (threshold := threshold) hc k nodes n (forbidden ||| processed) (by omega)
    split
    · rename_i e hf
      exact f1.err hs hf
    · rename_i s' hf
      exact f1.ok hs hf
    · rename_i s' hf
      have hs' := f1.ok hs hf
      split
      · rename_i e hf
        exact f2.err hs' hf
      · rename_i s' hf
        exact f2.ok hs' hf
      · rename_i s'' hf
        exact ih _ s'' (f2.ok hs' hf)

theorem fromIter_err {l : List Nat} {e : Err} (h : fromIter l = .error e) : e = .internal := by
  induction l generalizing e with
  | nil => cases h
  | cons i is ih =>
    simp only [fromIter] at h
    split at h
    · cases h; rfl
    · split at h
      · cases h
      · rename_i e' he
        cases h
        exact ih he

theorem singleton_err {i : Nat} {e : Err} (h : singleton i = .error e) : e = .internal := by
  unfold JoinSet.singleton at h
  split at h
  · cases h; rfl
  · cases h

theorem fine_emitCsg (hc : strict → Spec.FiniteEstimates c fin) (k : Nat) (hk : 65 ≤ k) (nodes : JoinSet) :
    Fine g c strict fin (emitCsg g threshold c k nodes) := by
  intro s hs
  unfold emitCsg
  by_cases h : nodes.cardinality = g.relations.length
  · simp only [h, if_true]; exact hs
  · simp only [h, if_false]
    cases hf : fromIter (List.range (nodes.elems.headD 0)) with
    | error e => rw [fromIter_err hf]; simp [Fits]
    | ok below => exact fine_csgLoop hc k hk _ _ _ _ s hs

theorem fine_csgStep (hc : strict → Spec.FiniteEstimates c fin) (k : Nat) (hk : 65 ≤ k) (nodes u : JoinSet) :
    Fine g c strict fin (csgStep g threshold c k nodes u) := by
  intro s hs
  unfold csgStep
  simp only
  split
  · exact fine_emitCsg hc k hk _ s hs
  · exact hs

theorem fine_csgRec (hc : strict → Spec.FiniteEstimates c fin) (f : Nat) (hf : 65 ≤ f) (k : Nat)
    (nodes forbidden : JoinSet) (hk : 65 ≤ k + forbidden.cardinality) :
    Fine g c strict fin (csgRec g threshold c f k nodes forbidden) := by
  induction k generalizing nodes forbidden with
  | zero =>
    have := card_le forbidden
    omega
  | succ k ih =>
    intro s hs
    unfold csgRec
    simp only
    by_cases he : (neighbors g nodes forbidden).isEmpty = true
    · simp only [he, if_true]; exact hs
    · simp only [he]
      have hg := forbidden_grows he
      have f1 := fine_forUnions (ns := neighbors g nodes forbidden) (fine_csgStep (g := g) (threshold := threshold) hc f hf nodes)
      cases hr : forUnions (neighbors g nodes forbidden) (csgStep g threshold c f nodes) s with
      | error e => exact f1.err hs hr
      | ok p =>
        obtain ⟨b, s'⟩ := p
        have hs' := f1.ok hs hr
        cases b with
        | false => exact hs'
        | true => exact fine_forUnions (fun u => ih (nodes ||| u) _ (by omega)) s' hs'

theorem fine_startNode (hc : strict → Spec.FiniteEstimates c fin) (k : Nat) (hk : 65 ≤ k) (idx : Nat) :
    Fine g c strict fin (startNode g threshold c k idx) := by
  intro s hs
  unfold startNode
  cases h1 : singleton idx with
  | error e => rw [singleton_err h1]; simp [Fits]
  | ok nodes =>
    have f1 := fine_emitCsg (g := g) (threshold := threshold) hc k hk nodes
    simp only
    cases h2 : emitCsg g threshold c k nodes s with
    | error e => exact f1.err hs h2
    | ok p =>
      obtain ⟨b, s'⟩ := p
      have hs' := f1.ok hs h2
      cases b with
      | false => exact hs'
      | true =>
        simp only
        cases h3 : fromIter (List.range idx) with
        | error e => rw [fromIter_err h3]; simp [Fits]
        | ok below => exact fine_csgRec hc k hk k _ _ (by omega) s' hs'

theorem fine_dphyp (hc : strict → Spec.FiniteEstimates c fin) (k : Nat) (hk : 65 ≤ k) (n : Nat) :
    Fine g c strict fin (dphyp g threshold c k n) := by
  induction n with
  | zero => exact fun s hs => hs
  | succ n ih =>
    intro s hs
    unfold dphyp
    have f1 := fine_startNode (g := g) (threshold := threshold) hc k hk n
    cases h1 : startNode g threshold c k n s with
    | error e => exact f1.err hs h1
    | ok p =>
      obtain ⟨b, s'⟩ := p
      have hs' := f1.ok hs h1
      cases b with
      | false => exact hs'
      | true => exact ih s' hs'

/-! ## Leaves -/

theorem Good.leaf (h : Good g c strict fin t) {i : Nat} {s : JoinSet} {x cost : c.F} (hs : singleton i = .ok s)
    (hi : i < g.relations.length) (hx : strict → fin x) :
    Good g c strict fin ((s, ⟨s, cost, x, .leaf i⟩) :: t) := by
  obtain ⟨h1, h2⟩ := singleton_ok hs
  refine h.cons ⟨rfl, ?_, ?_, hx, h2⟩
  · intro h0
    exact eq_zero_iff.1 h0 i ((h2 i).2 rfl)
  · intro j hj
    rw [(h2 j).1 hj]
    exact hi

theorem initLeaves_good (hc : strict → Spec.FiniteEstimates c fin) {rs : List (Plan α)} {i : Nat} {t t' : Table c.F}
    (h : Good g c strict fin t) (hi : i + rs.length ≤ g.relations.length) (hr : initLeaves c rs i t = .ok t') :
    Good g c strict fin t' := by
  induction rs generalizing i t with
  | nil => cases hr; exact h
  | cons r rs ih =>
    simp only [initLeaves] at hr
    rw [List.length_cons] at hi
    split at hr
    · rename_i s card hs hcard
      exact ih (h.leaf hs (by omega) fun hst => (hc hst).leaf _ _ hcard) (by omega) hr
    · cases hr

theorem initLeaves_err {rs : List (Plan α)} {i : Nat} {t : Table c.F} {e : Err} (hr : initLeaves c rs i t = .error e) :
    e = .internal := by
  induction rs generalizing i t with
  | nil => cases hr
  | cons r rs ih =>
    simp only [initLeaves] at hr
    split at hr
    · exact ih hr
    · cases hr; rfl

theorem ensureLeaves_good (hc : strict → Spec.FiniteEstimates c fin) {rs : List (Plan α)} {i : Nat} {t t' : Table c.F}
    (h : Good g c strict fin t) (hi : i + rs.length ≤ g.relations.length) (hr : ensureLeaves c rs i t = .ok t') :
    Good g c strict fin t' := by
  induction rs generalizing i t with
  | nil => cases hr; exact h
  | cons r rs ih =>
    simp only [ensureLeaves] at hr
    rw [List.length_cons] at hi
    split at hr
    · cases hr
    · rename_i s hs
      split at hr
      · exact ih h (by omega) hr
      · split at hr
        · rename_i card hcard
          exact ih (h.leaf hs (by omega) fun hst => (hc hst).leaf _ _ hcard) (by omega) hr
        · cases hr

/-! ## The greedy search -/

theorem pickConnected_ok (hc : strict → Spec.FiniteEstimates c fin) {cur : JoinSet} {cp : DP c.F}
    (ht : Good g c strict fin t) (hcp : strict → fin cp.card) {ns : List Nat} {best res : Option (Cand c)}
    (h : pickConnected g c t cur cp ns best = .ok res) :
    (∀ b, res = some b → best = some b ∨ (b.rel ∈ ns ∧ (strict → fin b.card) ∧
      ∃ s, singleton b.rel = .ok s ∧ (t.get s).isSome = true ∧ b.edges = connecting g cur s ∧ b.edges ≠ [])) ∧
    (strict → res = none → ∀ n ∈ ns, ∀ s, singleton n = .ok s → connecting g cur s = []) ∧
    (res = none → best = none) := by
  induction ns generalizing best with
  | nil => cases h; simp
  | cons n ns ih =>
    simp only [pickConnected] at h
    split at h
    · cases h
    · rename_i s hs
      split at h
      · cases h
      · rename_i np hnp
        split at h
        · rename_i he
          obtain ⟨h1, h2, h3⟩ := ih h
          refine ⟨fun b hb => ?_, fun hst hr m hm s' hs' => ?_, h3⟩
          · rcases h1 b hb with h | ⟨h, h'⟩
            · exact .inl h
            · exact .inr ⟨by simp [h], h'⟩
          · rcases List.mem_cons.1 hm with rfl | hm
            · rw [hs] at hs'
              cases hs'
              simpa using he
            · exact h2 hst hr m hm s' hs'
        · rename_i he
          obtain ⟨h1, h2, h3⟩ := ih h
          have hfin : strict → fin (c.joinCard cp.card np.card (connecting g cur s)) := fun hst =>
            (hc hst).join _ _ _ (hcp hst) ((ht s np hnp).2.2.2.1 hst)
          refine ⟨fun b hb => ?_, fun hst hr m hm s' hs' => ?_, ?_⟩
          · rcases h1 b hb with h | ⟨h, h'⟩
            · split at h
              · cases h
                exact .inr ⟨by simp, hfin, s, hs, by simp [hnp], rfl, by simpa using he⟩
              · exact .inl h
            · exact .inr ⟨by simp [h], h'⟩
          · exfalso
            have h4 := h3 hr
            split at h4
            · cases h4
            · rename_i hb
              apply hb
              subst h4
              simp only [beats]
              rw [(hc hst).lt _ (hfin hst)]
              rfl
          · intro hr
            have h4 := h3 hr
            split at h4
            · cases h4
            · exact h4

theorem pickCross_ok (hc : strict → Spec.FiniteEstimates c fin) {cp : DP c.F}
    (ht : Good g c strict fin t) (hcp : strict → fin cp.card) {ns : List Nat} {best res : Option (Cand c)}
    (h : pickCross c t cp ns best = .ok res) :
    ∀ b, res = some b → best = some b ∨ (b.rel ∈ ns ∧ (strict → fin b.card) ∧
      ∃ s, singleton b.rel = .ok s ∧ (t.get s).isSome = true ∧ b.edges = []) := by
  induction ns generalizing best with
  | nil => cases h; simp
  | cons n ns ih =>
    simp only [pickCross] at h
    split at h
    · cases h
    · rename_i s hs
      split at h
      · cases h
      · rename_i np hnp
        intro b hb
        rcases ih h b hb with h | ⟨h, h'⟩
        · split at h
          · cases h
            exact .inr ⟨by simp, fun hst => (hc hst).cross _ _ (hcp hst) ((ht s np hnp).2.2.2.1 hst), s, hs,
              by simp [hnp], rfl⟩
          · exact .inl h
        · exact .inr ⟨by simp [h], h'⟩

theorem pickNext_ok (hc : strict → Spec.FiniteEstimates c fin) {cur remaining : JoinSet} {cp : DP c.F} {b : Cand c}
    (ht : Good g c strict fin t) (hcp : strict → fin cp.card) (h : pickNext g c t cur remaining cp = .ok b) :
    Mem b.rel remaining ∧ (strict → fin b.card) ∧ ∃ s, singleton b.rel = .ok s ∧ (t.get s).isSome = true ∧
      (strict → b.edges = connecting g cur s) := by
  unfold pickNext at h
  split at h
  · cases h
  · rename_i b' hb
    cases h
    rcases (pickConnected_ok hc ht hcp hb).1 b rfl with h | ⟨h1, h2, s, h3, h4, h5, _⟩
    · cases h
    · exact ⟨mem_elems.1 h1, h2, s, h3, h4, fun _ => h5⟩
  · rename_i hb
    split at h
    · cases h
    · rename_i b' hb'
      cases h
      rcases pickCross_ok hc ht hcp hb' b rfl with h | ⟨h1, h2, s, h3, h4, h5⟩
      · cases h
      · refine ⟨mem_elems.1 h1, h2, s, h3, h4, fun hst => ?_⟩
        rw [h5, (pickConnected_ok hc ht hcp hb).2.1 hst rfl b.rel h1 s h3]
    · cases h

theorem pickConnected_err {cur : JoinSet} {cp : DP c.F} {ns : List Nat} {best : Option (Cand c)} {e : Err}
    (h : pickConnected g c t cur cp ns best = .error e) : e = .internal := by
  induction ns generalizing best with
  | nil => cases h
  | cons n ns ih =>
    simp only [pickConnected] at h
    split at h
    · rename_i hs; cases h; exact singleton_err hs
    · split at h
      · cases h; rfl
      · split at h
        · exact ih h
        · exact ih h

theorem pickCross_err {cp : DP c.F} {ns : List Nat} {best : Option (Cand c)} {e : Err}
    (h : pickCross c t cp ns best = .error e) : e = .internal := by
  induction ns generalizing best with
  | nil => cases h
  | cons n ns ih =>
    simp only [pickCross] at h
    split at h
    · rename_i hs; cases h; exact singleton_err hs
    · split at h
      · cases h; rfl
      · exact ih h

theorem pickNext_err {cur remaining : JoinSet} {cp : DP c.F} {e : Err}
    (h : pickNext g c t cur remaining cp = .error e) : e = .internal := by
  unfold pickNext at h
  split at h
  · rename_i hb; cases h; exact pickConnected_err hb
  · cases h
  · split at h
    · rename_i hb; cases h; exact pickCross_err hb
    · cases h
    · cases h; rfl

/-- What a finished search returns. -/
def Found (g : Graph α) (c : Costs) (strict : Prop) (fin : c.F → Prop) (all : JoinSet) :
    Except Err (DP c.F × Table c.F) → Prop
  | .ok (d, t) => Good g c strict fin t ∧ t.get all = some d
  | .error e => e ≠ .fuel

theorem greedyLoop_ok (hc : strict → Spec.FiniteEstimates c fin) (k : Nat) {cur remaining : JoinSet} {cp : DP c.F}
    (ht : Good g c strict fin t) (hcur : t.get cur = some cp) (hk : remaining.cardinality < k)
    (hd : ∀ i, Mem i cur → ¬ Mem i remaining) :
    Found g c strict fin (cur ||| remaining) (greedyLoop g c k cur remaining cp t) := by
  induction k generalizing cur remaining cp t with
  | zero => omega
  | succ k ih =>
    unfold greedyLoop
    by_cases hz : remaining = 0#64
    · subst hz
      simp only [beq_self_eq_true, if_true]
      refine ⟨ht, ?_⟩
      rw [show cur ||| 0#64 = cur from JoinSet.ext fun i => by simp]
      exact hcur
    · have hz' : (remaining == 0#64) = false := by simpa using hz
      simp only [hz']
      have hcp := (ht cur cp hcur).2.2.2.1
      cases hp : pickNext g c t cur remaining cp with
      | error e => simp [Found, pickNext_err hp]
      | ok b =>
        obtain ⟨h1, h2, s, h3, h4, h5⟩ := pickNext_ok hc ht hcp hp
        simp only [h3, Bool.false_eq_true, if_false]
        obtain ⟨_, hs⟩ := singleton_ok h3
        obtain ⟨sp, hsp⟩ := Option.isSome_iff_exists.1 h4
        have hdis : ∀ i, Mem i cur → ¬ Mem i s := by
          intro i hi hm
          rw [hs i] at hm
          subst hm
          exact hd _ hi h1
        have hg : Good g c strict fin ((cur ||| s, ⟨cur ||| s, b.cost, b.card, .join cur s b.edges⟩) :: t) :=
          ht.join hcur hsp hdis (.inl rfl) rfl h2 h5
        have := ih (cur := cur ||| s) (remaining := remaining &&& ~~~s) hg (by rw [get_cons, if_pos rfl]) (by
          have : (remaining &&& ~~~s).cardinality < remaining.cardinality :=
            card_lt_of_ssubset (fun i hi => (mem_andNot.1 hi).1) h1 fun hm => (mem_andNot.1 hm).2 ((hs _).2 rfl)
          omega) (by
          intro i hi hm
          obtain ⟨hm1, hm2⟩ := mem_andNot.1 hm
          rcases mem_or.1 hi with h | h
          · exact hd i h hm1
          · exact hm2 h)
        have e1 : cur ||| s ||| (remaining &&& ~~~s) = cur ||| remaining := by
          apply JoinSet.ext
          intro i
          simp only [mem_or, mem_andNot, hs]
          by_cases hi : i = b.rel
          · subst hi; simp [h1]
          · simp [hi]
        rw [e1] at this
        exact this

theorem greedy_ok (hc : strict → Spec.FiniteEstimates c fin) (k : Nat) (hk : 65 ≤ k) (ht : Good g c strict fin t)
    {all : JoinSet} (ha : fromIter (List.range g.relations.length) = .ok all) :
    Found g c strict fin all (greedy g c k t) := by
  unfold greedy
  rw [ha]
  cases he : ensureLeaves c g.relations 0 t with
  | error e => simp [Found]
  | ok t' =>
    have ht' := ensureLeaves_good hc ht (by omega) he
    simp only
    cases hg : t'.get all with
    | some p => exact ⟨ht', hg⟩
    | none =>
      simp only
      cases hs : singleton c.start with
      | error e => simp [Found, singleton_err hs]
      | ok s =>
        simp only
        cases hsp : t'.get s with
        | none => simp [Found]
        | some cp =>
          have h3 := (ht' s cp hsp).2.2.1
          have := greedyLoop_ok hc k (remaining := all &&& ~~~s) ht' hsp (by
            have := card_le (all &&& ~~~s)
            omega) (fun i hi hm => (mem_andNot.1 hm).2 hi)
          have e1 : s ||| (all &&& ~~~s) = all := by
            apply JoinSet.ext
            intro i
            simp only [mem_or, mem_andNot]
            have := (fromIter_ok ha).2 i
            rw [List.mem_range] at this
            by_cases hi : Mem i s
            · simp [hi, this.2 (h3 i hi)]
            · simp [hi]
          rw [e1] at this
          exact this

theorem solve_ok (hc : strict → Spec.FiniteEstimates c fin) (k : Nat) (hk : 65 ≤ k) {all : JoinSet}
    (ha : fromIter (List.range g.relations.length) = .ok all) :
    Found g c strict fin all (solve g threshold c k) := by
  unfold solve
  cases hi : initLeaves c g.relations 0 [] with
  | error e => simp [Found, initLeaves_err hi]
  | ok t =>
    have ht : Good g c strict fin t := initLeaves_good hc (fun S d h => by cases h) (by omega) hi
    have f1 := fine_dphyp (g := g) (threshold := threshold) hc k hk g.relations.length
    simp only
    cases hd : dphyp g threshold c k g.relations.length ⟨t, 0⟩ with
    | error e => exact f1.err ht hd
    | ok p =>
      obtain ⟨b, s⟩ := p
      have hs : Good g c strict fin s.table := f1.ok ht hd
      simp only [ha]
      cases hg : s.table.get all with
      | some p => exact ⟨hs, hg⟩
      | none => exact greedy_ok hc k hk hs ha

theorem solve_length {r : DP c.F × Table c.F} {k : Nat} (h : solve g threshold c k = .ok r) :
    g.relations.length ≤ 64 := by
  unfold solve at h
  split at h
  · cases h
  · split at h
    · cases h
    · split at h
      · cases h
      · rename_i all ha
        apply Classical.byContradiction
        intro hn
        have := (fromIter_ok ha).1 64 (List.mem_range.2 (by omega))
        omega

end

end Verif.Opt
