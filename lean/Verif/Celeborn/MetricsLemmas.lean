import Verif.Celeborn.CommitLemmas

/-!
# Lemmas: metrics
-/

namespace Verif.Celeborn

open Verif.Catalog (find erase put)

variable {ρ : Type}

/-- The four amounts, with what a registered shuffle and a registered application add. -/
def Spec.parts : List ((Metrics → Int) × Int × Int) :=
  [(Metrics.written, 0, 0), (Metrics.files, 0, 0), (Metrics.shuffles, 1, 0), (Metrics.apps, 0, 1)]

/-- The amounts that tasks reported. -/
def Spec.reported (f : Metrics → Int) : List (Event ρ) → Int
  | [] => 0
  | .ask (.report m _) :: es => f m + reported f es
  | _ :: es => reported f es

/-- The amounts of commits that succeeded, and of shuffles that were registered. -/
def Spec.yielded (f : Metrics → Int) (c : Int) : List (Task ρ × Remote) → Int
  | [] => 0
  | (.commit .., .committed m) :: es => f m + yielded f c es
  | (.slots .., .reserved _) :: es => c + yielded f c es
  | _ :: es => yielded f c es

/-- The amounts in heartbeats that the master confirmed. -/
def Spec.confirmed (f : Metrics → Int) : List (Task ρ × Remote) → Int
  | [] => 0
  | (.heartbeat m, .fine) :: es => f m + confirmed f es
  | _ :: es => confirmed f es

/-- The amounts in heartbeats under way. -/
def Spec.underway (f : Metrics → Int) : List (Task ρ) → Int
  | [] => 0
  | .heartbeat m :: es => f m + underway f es
  | _ :: es => underway f es

theorem reported_append (f : Metrics → Int) (a b : List (Event ρ)) :
    Spec.reported f (a ++ b) = Spec.reported f a + Spec.reported f b := by
  induction a with
  | nil => simp [Spec.reported]
  | cons e a ih =>
    cases e with
    | ask q => cases q <;> simp only [List.cons_append, Spec.reported, ih] <;> omega
    | finish i x => simp only [List.cons_append, Spec.reported, ih]

theorem yielded_append (f : Metrics → Int) (c : Int) (a b : List (Task ρ × Remote)) :
    Spec.yielded f c (a ++ b) = Spec.yielded f c a + Spec.yielded f c b := by
  induction a with
  | nil => simp [Spec.yielded]
  | cons e a ih =>
    obtain ⟨t, x⟩ := e
    cases t <;> cases x <;> simp only [List.cons_append, Spec.yielded, ih] <;> omega

theorem confirmed_append (f : Metrics → Int) (a b : List (Task ρ × Remote)) :
    Spec.confirmed f (a ++ b) = Spec.confirmed f a + Spec.confirmed f b := by
  induction a with
  | nil => simp [Spec.confirmed]
  | cons e a ih =>
    obtain ⟨t, x⟩ := e
    cases t <;> cases x <;> simp only [List.cons_append, Spec.confirmed, ih] <;> omega

theorem underway_append (f : Metrics → Int) (a b : List (Task ρ)) :
    Spec.underway f (a ++ b) = Spec.underway f a + Spec.underway f b := by
  induction a with
  | nil => simp [Spec.underway]
  | cons t a ih => cases t <;> simp only [List.cons_append, Spec.underway, ih] <;> omega

theorem underway_perm (f : Metrics → Int) {a b : List (Task ρ)} (h : a.Perm b) :
    Spec.underway f a = Spec.underway f b := by
  induction h with
  | nil => rfl
  | cons x _ ih => cases x <;> simp only [Spec.underway, ih]
  | swap x y l => cases x <;> cases y <;> simp only [Spec.underway] <;> omega
  | trans _ _ ih1 ih2 => rw [ih1, ih2]

/-- The heartbeats among some tasks. -/
def beats (ts : List (Task ρ)) : List Metrics :=
  ts.filterMap fun t => match t with | .heartbeat m => some m | _ => none

theorem underway_beats (f : Metrics → Int) (ts : List (Task ρ)) :
    Spec.underway f ts = ((beats ts).map f).sum := by
  induction ts with
  | nil => rfl
  | cons t ts ih => cases t <;> simp [Spec.underway, beats] <;> simpa [beats] using ih

/-- A part of the metrics. -/
structure Part (f : Metrics → Int) (c d : Int) : Prop where
  add : ∀ a b, f (a.add b) = satAdd (f a) (f b)
  zero : f Metrics.zero = 0
  shuffle : ∀ m : Metrics, f { m with shuffles := satAdd m.shuffles 1 } = if c = 0 then f m else satAdd (f m) c
  app : f { Metrics.zero with apps := 1 } = d
  c0 : 0 ≤ c
  d0 : 0 ≤ d

theorem Part.of_mem {p : (Metrics → Int) × Int × Int} (h : p ∈ Spec.parts) : Part p.1 p.2.1 p.2.2 := by
  simp only [Spec.parts, List.mem_cons, List.not_mem_nil, or_false] at h
  rcases h with rfl | rfl | rfl | rfl
  · exact ⟨fun _ _ => rfl, rfl, fun _ => rfl, rfl, by simp, by simp⟩
  · exact ⟨fun _ _ => rfl, rfl, fun _ => rfl, rfl, by simp, by simp⟩
  · exact ⟨fun _ _ => rfl, rfl, fun _ => rfl, rfl, by simp, by simp⟩
  · exact ⟨fun _ _ => rfl, rfl, fun _ => rfl, rfl, by simp, by simp⟩

theorem satAdd_eq {a b : Int} (ha : 0 ≤ a) (hb : 0 ≤ b) (h : a + b ≤ 2 ^ 63 - 1) : satAdd a b = a + b := by
  simp only [satAdd]
  omega

/-- What requests do to metrics. -/
theorem request_metrics (s : State ρ) (q : Request ρ) :
    (∀ m r, q = .report m r → (request s q).st.metrics = s.metrics.add m ∧
      (request s q).st.heartbeat = s.heartbeat ∧ (request s q).tasks = []) ∧
    ((∀ m r, q ≠ .report m r) →
      ((request s q).st.metrics = s.metrics ∧ (request s q).st.heartbeat = s.heartbeat ∧
        beats (request s q).tasks = []) ∨
      (s.heartbeat = none ∧ (request s q).st.metrics = Metrics.zero ∧
        (request s q).st.heartbeat = some s.metrics ∧ beats (request s q).tasks = [s.metrics])) := by
  constructor
  · rintro m r rfl
    exact ⟨rfl, rfl, rfl⟩
  intro hq
  cases q with
  | getId job stage r =>
    left
    simp only [request, getId]
    split
    · exact ⟨rfl, rfl, rfl⟩
    · split <;> exact ⟨rfl, rfl, rfl⟩
  | jobIds job r => exact .inl ⟨rfl, rfl, rfl⟩
  | register s parts b m r =>
    left
    simp only [request, register]
    split
    · exact ⟨rfl, rfl, rfl⟩
    · split
      · exact ⟨rfl, rfl, rfl⟩
      · split <;> exact ⟨rfl, rfl, rfl⟩
  | revive s pid old cause r =>
    left
    simp only [request, revive]
    split
    · exact ⟨rfl, rfl, rfl⟩
    · split
      · exact ⟨rfl, rfl, rfl⟩
      · split
        · exact ⟨rfl, rfl, rfl⟩
        · split
          · exact ⟨rfl, rfl, rfl⟩
          · split
            · exact ⟨rfl, rfl, rfl⟩
            · split <;> exact ⟨rfl, rfl, rfl⟩
  | mapperEnd s map attempt n r =>
    left
    simp only [request, mapperEnd]
    split
    · exact ⟨rfl, rfl, rfl⟩
    · split
      · exact ⟨rfl, rfl, rfl⟩
      · split
        · exact ⟨rfl, rfl, rfl⟩
        · split
          · exact ⟨rfl, rfl, rfl⟩
          · split
            · exact ⟨rfl, rfl, rfl⟩
            · split
              · exact ⟨rfl, rfl, rfl⟩
              · split <;> exact ⟨rfl, rfl, rfl⟩
  | unregister s r =>
    left
    simp only [request, unregister]
    split <;> exact ⟨rfl, rfl, rfl⟩
  | report m r => exact absurd rfl (hq m r)
  | heartbeat =>
    simp only [request, heartbeat]
    split
    · exact .inl ⟨rfl, rfl, rfl⟩
    · rename_i h
      exact .inr ⟨h, rfl, rfl, rfl⟩
  | stop r => exact .inl ⟨rfl, rfl, rfl⟩

theorem beats_cleanup {ts : List (Task ρ)} (h : ∀ t ∈ ts, ∃ sid, t = .cleanup sid) : beats ts = [] := by
  rw [beats, List.filterMap_eq_nil_iff]
  intro t ht
  obtain ⟨sid, rfl⟩ := h t ht
  rfl

structure Flow (f : Metrics → Int) (c d : Int) (evs : List (Event ρ)) (w : World ρ) : Prop where
  beat : beats w.tasks = w.st.heartbeat.toList
  pend : 0 ≤ f w.st.metrics
  way : 0 ≤ Spec.underway f w.tasks
  conf : 0 ≤ Spec.confirmed f w.ended
  rep : 0 ≤ Spec.reported f evs
  yld : 0 ≤ Spec.yielded f c w.ended
  eq : d + Spec.reported f evs + Spec.yielded f c w.ended =
    Spec.confirmed f w.ended + Spec.underway f w.tasks + f w.st.metrics

theorem eraseIdx_beats {w : World ρ} {i : Nat} {t : Task ρ} (ht : w.tasks[i]? = some t) :
    (beats w.tasks).Perm (beats (t :: w.tasks.eraseIdx i)) :=
  ((eraseIdx_perm ht).filterMap _).symm

theorem Flow.step {f : Metrics → Int} {c d d' : Int} (part : Part f c d') (evs : List (Event ρ)) (w : World ρ)
    (e : Event ρ) (h : w.stopped = false →
      d + Spec.reported f evs + Spec.yielded f c w.ended ≤ 2 ^ 63 - 1 → Flow f c d evs w)
    (nn : ∀ m r, e = .ask (.report m r) → 0 ≤ f m)
    (nn' : ∀ i m, e = .finish i (.committed m) → 0 ≤ f m)
    (on : (w.step e).stopped = false)
    (fits : d + Spec.reported f (evs ++ [e]) + Spec.yielded f c (w.step e).ended ≤ 2 ^ 63 - 1) :
    Flow f c d (evs ++ [e]) (w.step e) := by
  have c0 := part.c0
  cases hs : w.stopped with
  | true =>
    exfalso
    revert on
    refine step_cases (P := fun v => v.stopped = false → False) w e (by simp [hs]) ?_ ?_
    · intro q _ h2; rw [hs] at h2; exact nomatch h2
    · intro i t a x _ _ _
      refine handle_cases (P := fun v => v.stopped = false → False)
        { w with tasks := w.tasks.eraseIdx i, ended := w.ended ++ [(t, a)] } x (by simp [hs]) ?_
      intro y b _ h2
      have h2' : w.stopped = false := h2
      rw [hs] at h2'; exact nomatch h2'
  | false =>
    have h := h hs
    cases e with
    | ask q =>
      simp only [World.step, hs, Bool.false_eq_true, if_false] at fits on ⊢
      have ended : (w.apply (request w.st q)).ended = w.ended := rfl
      rw [ended] at fits
      rw [reported_append] at fits
      obtain ⟨r1, r2⟩ := request_metrics w.st q
      by_cases hq : ∃ m r, q = .report m r
      · obtain ⟨m, r, rfl⟩ := hq
        obtain ⟨g1, g2, g3⟩ := r1 m r rfl
        have fm := nn m r rfl
        have er : Spec.reported f [Event.ask (.report m r)] = f m := by simp [Spec.reported]
        rw [er] at fits
        have h := h (by omega)
        have := h.eq
        have a1 := h.pend
        have a2 := h.way
        have a3 := h.conf
        have hm : f (w.apply (request w.st (.report m r))).st.metrics = f w.st.metrics + f m := by
          show f (request w.st (.report m r)).st.metrics = _
          rw [g1, part.add, satAdd_eq a1 fm (by omega)]
        have ht : (w.apply (request w.st (.report m r))).tasks = w.tasks := by
          show w.tasks ++ (request w.st (.report m r)).tasks = _
          rw [g3, List.append_nil]
        refine ⟨?_, by rw [hm]; omega, by rw [ht]; exact a2, h.conf,
          by rw [reported_append, er]; have := h.rep; omega, h.yld, ?_⟩
        · rw [ht, h.beat]
          show _ = (request w.st (.report m r)).st.heartbeat.toList
          rw [g2]
        · rw [hm, ht, ended, reported_append, er]
          omega
      · have hq' : ∀ m r, q ≠ .report m r := fun m r hh => hq ⟨m, r, hh⟩
        have er : Spec.reported f [Event.ask q] = 0 := by
          cases q <;> first | rfl | exact absurd rfl (hq' _ _)
        rw [er] at fits
        have h := h (by omega)
        have := h.eq
        have a1 := h.pend
        have a2 := h.way
        have a3 := h.conf
        have hway : Spec.underway f (w.apply (request w.st q)).tasks =
            Spec.underway f w.tasks + ((beats (request w.st q).tasks).map f).sum := by
          show Spec.underway f (w.tasks ++ (request w.st q).tasks) = _
          rw [underway_append, underway_beats f (request w.st q).tasks]
        have hbeat : beats (w.apply (request w.st q)).tasks =
            beats w.tasks ++ beats (request w.st q).tasks := by
          show beats (w.tasks ++ (request w.st q).tasks) = _
          simp [beats]
        rcases r2 hq' with ⟨g1, g2, g3⟩ | ⟨g0, g1, g2, g3⟩
        · have hm : f (w.apply (request w.st q)).st.metrics = f w.st.metrics := by
            show f (request w.st q).st.metrics = _
            rw [g1]
          rw [g3] at hway hbeat
          simp at hway
          refine ⟨?_, by rw [hm]; exact a1, by rw [hway]; exact a2, h.conf,
            by rw [reported_append, er]; have := h.rep; omega, h.yld, ?_⟩
          · rw [hbeat, List.append_nil, h.beat]
            show _ = (request w.st q).st.heartbeat.toList
            rw [g2]
          · rw [hm, hway, ended, reported_append, er]
            omega
        · have hm : f (w.apply (request w.st q)).st.metrics = 0 := by
            show f (request w.st q).st.metrics = _
            rw [g1, part.zero]
          rw [g3] at hway hbeat
          simp at hway
          have hb := h.beat
          rw [g0] at hb
          refine ⟨?_, by rw [hm]; omega, by rw [hway]; omega, h.conf,
            by rw [reported_append, er]; have := h.rep; omega, h.yld, ?_⟩
          · rw [hbeat, hb]
            show _ = (request w.st q).st.heartbeat.toList
            rw [g2]
            rfl
          · rw [hm, hway, ended, reported_append, er]
            omega
    | finish i a =>
      have er : Spec.reported f (evs ++ [Event.finish i a]) = Spec.reported f evs := by
        rw [reported_append]; simp [Spec.reported]
      have same : Spec.yielded f c w.ended ≤ Spec.yielded f c (w.step (.finish i a)).ended →
          Flow f c d evs w := fun hle => h (by rw [er] at fits; omega)
      cases ht : w.tasks[i]? with
      | none =>
        simp only [World.step, ht] at fits on same ⊢
        have h := same (Int.le_refl _)
        exact ⟨h.beat, h.pend, h.way, h.conf, by rw [er]; exact h.rep, h.yld, by rw [er]; exact h.eq⟩
      | some t =>
        cases hf : finish t a with
        | none =>
          simp only [World.step, ht, hf] at fits on same ⊢
          have h := same (Int.le_refl _)
          exact ⟨h.beat, h.pend, h.way, h.conf, by rw [er]; exact h.rep, h.yld, by rw [er]; exact h.eq⟩
        | some dn =>
          simp only [World.step, ht, hf] at fits on same ⊢
          have pb := eraseIdx_beats ht
          have pw := underway_perm f (eraseIdx_perm ht)
          have en : (({ w with tasks := w.tasks.eraseIdx i, ended := w.ended ++ [(t, a)] } :
              World ρ).handle dn).ended = w.ended ++ [(t, a)] := by
            refine handle_cases (P := fun v => v.ended = w.ended ++ [(t, a)])
              { w with tasks := w.tasks.eraseIdx i, ended := w.ended ++ [(t, a)] } dn rfl ?_
            intro y b _ _
            rfl
          rw [en] at fits same
          rw [yielded_append] at fits same
          rw [er] at fits
          -- the end of anything but a heartbeat
          have other : (∀ m, t ≠ .heartbeat m) →
              0 ≤ Spec.yielded f c [(t, a)] →
              (∀ v : World ρ, v.st.heartbeat = w.st.heartbeat →
                (∃ ts, v.tasks = w.tasks.eraseIdx i ++ ts ∧ beats ts = []) →
                v.ended = w.ended ++ [(t, a)] →
                (f w.st.metrics + Spec.yielded f c [(t, a)] ≤ 2 ^ 63 - 1 → 0 ≤ f w.st.metrics →
                  f v.st.metrics = f w.st.metrics + Spec.yielded f c [(t, a)]) →
                Flow f c d (evs ++ [.finish i a]) v) := by
            intro hne y0 v vh vt ve vm
            obtain ⟨ts, vt, vb⟩ := vt
            have h := same (by omega)
            have h0 := h.eq
            have a1 := h.pend
            have a2 := h.way
            have a3 := h.conf
            have a4 := h.yld
            have vm := vm (by omega) a1
            have e1 : beats (t :: w.tasks.eraseIdx i) = beats (w.tasks.eraseIdx i) := by
              cases t <;> first | rfl | exact absurd rfl (hne _)
            have e2 : Spec.underway f (t :: w.tasks.eraseIdx i) = Spec.underway f (w.tasks.eraseIdx i) := by
              cases t <;> first | rfl | exact absurd rfl (hne _)
            have e3 : Spec.confirmed f [(t, a)] = 0 := by
              cases t <;> cases a <;> first | rfl | exact absurd rfl (hne _)
            have vw : Spec.underway f v.tasks = Spec.underway f w.tasks := by
              rw [vt, underway_append, underway_beats f ts, vb, ← pw, e2]
              simp
            refine ⟨?_, by rw [vm]; omega, by rw [vw]; exact a2,
              by rw [ve, confirmed_append, e3]; omega, by rw [er]; exact h.rep,
              by rw [ve, yielded_append]; omega, ?_⟩
            · have hb : beats v.tasks = beats (w.tasks.eraseIdx i) := by
                rw [vt]
                simp only [beats, List.filterMap_append] at vb ⊢
                rw [vb, List.append_nil]
              rw [hb, vh]
              rw [e1, h.beat] at pb
              cases hh : w.st.heartbeat with
              | none =>
                rw [hh] at pb
                exact List.nil_perm.1 pb
              | some m =>
                rw [hh] at pb
                exact (List.perm_singleton.1 pb.symm)
            · rw [ve, er, yielded_append, confirmed_append, e3, vw, vm]
              omega
          have on' : w.stopped = false := hs
          have quiet : ∀ x, dn = some x → (∀ m, t ≠ .heartbeat m) → Spec.yielded f c [(t, a)] = 0 →
              (done w.st x).st.heartbeat = w.st.heartbeat → (done w.st x).st.metrics = w.st.metrics →
              Flow f c d (evs ++ [.finish i a]) (World.handle
                { w with tasks := w.tasks.eraseIdx i, ended := w.ended ++ [(t, a)] } dn) := by
            rintro x rfl hne hy hh hm
            refine other hne (by omega) _ ?_ ?_ en ?_
            · simp only [World.handle, on']; exact hh
            · simp only [World.handle, on']
              exact ⟨(done w.st x).tasks, rfl, beats_cleanup (done_tasks w.st x)⟩
            · intro _ _
              simp only [World.handle, on']
              show f (done w.st x).st.metrics = _
              rw [hm, hy]; omega
          cases t with
          | slots sid ps b m =>
            cases a <;> simp [finish] at hf
            · subst hf
              exact quiet _ rfl (by simp) rfl rfl rfl
            · subst hf
              rename_i res
              have hy : Spec.yielded f c [((Task.slots sid ps b m : Task ρ), Remote.reserved res)] = c := by
                simp [Spec.yielded]
              refine other (by simp) (by omega) _ ?_ ?_ en ?_
              · simp only [World.handle, on']; rfl
              · simp only [World.handle, on']
                exact ⟨_, rfl, beats_cleanup (done_tasks w.st _)⟩
              · intro h1 h2
                simp only [World.handle, on']
                show f (done w.st (.registered sid (.ok res))).st.metrics = _
                simp only [done, registerDone]
                rw [part.shuffle, hy]
                split
                · omega
                · rw [hy] at h1
                  exact satAdd_eq h2 c0 h1
          | revive sid pid b ex ep =>
            have key : ∀ x : Except Err Reservation,
                (done w.st (.revived sid pid x)).st.heartbeat = w.st.heartbeat ∧
                (done w.st (.revived sid pid x)).st.metrics = w.st.metrics := by
              intro x
              simp only [done, reviveDone]
              split
              · exact ⟨rfl, rfl⟩
              · split
                · exact ⟨rfl, rfl⟩
                · split <;> exact ⟨rfl, rfl⟩
            cases a <;> simp [finish] at hf
            · subst hf
              exact quiet _ rfl (by simp) rfl (key _).1 (key _).2
            · split at hf
              · simp at hf
                subst hf
                exact quiet _ rfl (by simp) rfl (key _).1 (key _).2
              · simp at hf
                subst hf
                exact quiet _ rfl (by simp) rfl (key _).1 (key _).2
          | commit sid sl att r =>
            cases a <;> simp [finish] at hf
            · subst hf
              exact quiet _ rfl (by simp) rfl rfl rfl
            · subst hf
              rename_i m
              have fm := nn' i m rfl
              have hy : Spec.yielded f c [((Task.commit sid sl att r : Task ρ), Remote.committed m)] = f m := by
                simp [Spec.yielded]
              refine other (by simp) (by omega) _ ?_ ?_ en ?_
              · simp only [World.handle, on']; rfl
              · simp only [World.handle, on']
                exact ⟨_, rfl, beats_cleanup (done_tasks w.st _)⟩
              · intro h1 h2
                simp only [World.handle, on']
                show f (done w.st (.committed sid (.ok m) r)).st.metrics = _
                simp only [done, mapperEndDone]
                rw [hy] at h1
                rw [part.add, hy, satAdd_eq h2 fm h1]
          | unregister sid r =>
            cases a <;> simp [finish] at hf <;> subst hf <;>
              exact quiet _ rfl (by simp) rfl rfl rfl
          | cleanup sid =>
            have hy : Spec.yielded f c [((Task.cleanup sid : Task ρ), a)] = 0 := by
              cases a <;> rfl
            have hdn : dn = none := by
              cases a <;> simp [finish] at hf <;> exact hf.symm
            subst hdn
            exact other (by simp) (by omega) _ rfl ⟨[], by simp [World.handle], rfl⟩ rfl
              (by intro _ _; rw [hy]; simp [World.handle])
          | heartbeat m =>
            have hy : Spec.yielded f c [((Task.heartbeat m : Task ρ), a)] = 0 := by
              cases a <;> rfl
            have h := same (by omega)
            have h0 := h.eq
            have a1 := h.pend
            have a2 := h.way
            have a3 := h.conf
            have a4 := h.yld
            have e1 : beats (Task.heartbeat m :: w.tasks.eraseIdx i) = m :: beats (w.tasks.eraseIdx i) := rfl
            rw [h.beat, e1] at pb
            have hhb : w.st.heartbeat = some m ∧ beats (w.tasks.eraseIdx i) = [] := by
              cases hh : w.st.heartbeat with
              | none =>
                rw [hh] at pb
                have := pb.length_eq
                simp at this
              | some m' =>
                rw [hh] at pb
                have := List.perm_singleton.1 pb.symm
                simp at this
                exact ⟨by rw [this.1], this.2⟩
            have e2 : Spec.underway f (Task.heartbeat m :: w.tasks.eraseIdx i) =
                f m + Spec.underway f (w.tasks.eraseIdx i) := rfl
            have e3 : Spec.underway f (w.tasks.eraseIdx i) = 0 := by
              rw [underway_beats, hhb.2]; rfl
            rw [e2, e3] at pw
            cases a <;> simp [finish] at hf
            · subst hf
              have hm : f (w.st.metrics.add m) = f w.st.metrics + f m := by
                rw [part.add, satAdd_eq a1 (by omega) (by omega)]
              have hd : done w.st (.heartbeat (.error .remote)) =
                  ⟨{ w.st with heartbeat := none, metrics := w.st.metrics.add m }, [], []⟩ := by
                simp only [done, heartbeatDone, hhb.1]
              simp only [World.handle, on', hd, World.apply, List.append_nil]
              have e4 : Spec.confirmed f (w.ended ++ [(Task.heartbeat m, Remote.failed)]) =
                  Spec.confirmed f w.ended := by rw [confirmed_append]; simp [Spec.confirmed]
              refine ⟨?_, ?_, ?_, ?_, by rw [er]; exact h.rep, ?_, ?_⟩
              · exact hhb.2
              · show 0 ≤ f (w.st.metrics.add m); rw [hm]; omega
              · show 0 ≤ Spec.underway f (w.tasks.eraseIdx i); omega
              · show 0 ≤ Spec.confirmed f (w.ended ++ _); rw [e4]; exact a3
              · show 0 ≤ Spec.yielded f c (w.ended ++ _); rw [yielded_append, hy]; omega
              · show _ + Spec.yielded f c (w.ended ++ _) = Spec.confirmed f (w.ended ++ _) +
                  Spec.underway f (w.tasks.eraseIdx i) + f (w.st.metrics.add m)
                rw [er, e4, yielded_append, hy, hm, e3]
                omega
            · subst hf
              have hd : done w.st (.heartbeat (.ok ())) = ⟨{ w.st with heartbeat := none }, [], []⟩ := rfl
              simp only [World.handle, on', hd, World.apply, List.append_nil]
              have e4 : Spec.confirmed f (w.ended ++ [(Task.heartbeat m, Remote.fine)]) =
                  Spec.confirmed f w.ended + f m := by rw [confirmed_append]; simp [Spec.confirmed]
              refine ⟨?_, a1, ?_, ?_, by rw [er]; exact h.rep, ?_, ?_⟩
              · exact hhb.2
              · show 0 ≤ Spec.underway f (w.tasks.eraseIdx i); omega
              · show 0 ≤ Spec.confirmed f (w.ended ++ _); rw [e4]; omega
              · show 0 ≤ Spec.yielded f c (w.ended ++ _); rw [yielded_append, hy]; omega
              · show _ + Spec.yielded f c (w.ended ++ _) = Spec.confirmed f (w.ended ++ _) +
                  Spec.underway f (w.tasks.eraseIdx i) + f w.st.metrics
                rw [er, e4, yielded_append, hy, e3]
                omega
          | stop sids r =>
            cases a <;> simp [finish] at hf
            subst hf
            exact quiet _ rfl (by simp) rfl rfl rfl

theorem Flow.run {f : Metrics → Int} {c d : Int} (part : Part f c d) (reg : Registration)
    (evs : List (Event ρ)) (nn : ∀ m r, Event.ask (.report m r) ∈ evs → 0 ≤ f m)
    (nn' : ∀ i m, Event.finish i (.committed m) ∈ evs → 0 ≤ f m)
    (on : ((World.init ρ reg).run evs).stopped = false)
    (fits : (if reg = .succeeded then d else 0) + Spec.reported f evs +
      Spec.yielded f c ((World.init ρ reg).run evs).ended ≤ 2 ^ 63 - 1) :
    Flow f c (if reg = .succeeded then d else 0) evs ((World.init ρ reg).run evs) := by
  have d0 : 0 ≤ (if reg = .succeeded then d else 0) := by
    have := part.d0
    split <;> omega
  generalize hd : (if reg = .succeeded then d else 0) = d' at *
  induction evs using List.reverseRecOn with
  | nil =>
    have hm : f (World.init ρ reg).st.metrics = d' := by
      rw [← hd]
      simp only [World.init, State.init]
      split
      · exact part.app
      · exact part.zero
    refine ⟨rfl, ?_, ?_, ?_, ?_, ?_, ?_⟩
    · show 0 ≤ f (World.init ρ reg).st.metrics
      omega
    · simp [World.run, World.init, Spec.underway]
    · simp [World.run, World.init, Spec.confirmed]
    · simp [Spec.reported]
    · simp [World.run, World.init, Spec.yielded]
    · show _ = _ + _ + f (World.init ρ reg).st.metrics
      simp [World.run, World.init, Spec.reported, Spec.yielded, Spec.confirmed, Spec.underway] at hm ⊢
      exact hm.symm
  | append_singleton evs e ih =>
    rw [run_append] at on fits ⊢
    refine Flow.step part evs _ e ?_ ?_ ?_ on fits
    · intro o h
      exact ih (fun m r hm => nn m r (List.mem_append_left _ hm))
        (fun i m hm => nn' i m (List.mem_append_left _ hm)) o h
    · rintro m r rfl
      exact nn m r (by simp)
    · rintro i m rfl
      exact nn' i m (by simp)

end Verif.Celeborn
