import Verif.Exec.Output
import Mathlib.Data.List.Basic

/-!
# Properties of the job output: C06
-/

namespace Verif.Exec.Output

namespace Spec

/-- The rows the client received from streams with the given key (one output partition and
channel), in order. -/
def delivered (key : Nat) (out : List Out) : List Nat :=
  out.flatMap fun
    | .batch k rows => if k = key then rows else []
    | .error => []

/-- All rows of a task stream. -/
def rows (content : List Item) : List Nat :=
  content.flatMap fun
    | .batch rows => rows
    | .error => []

/-- The rows of the most recent stream received for the key, none if there was no stream. -/
def latest (key : Nat) : List Event → List Nat
  | [] => []
  | .stream k content :: es =>
    if es.any (fun e => match e with | .stream k' _ => k' == key | _ => false) then latest key es
    else if k = key then rows content else latest key es
  | _ :: es => latest key es

/-- When a stream arrives for an output partition of which rows have been delivered, the stream they
came from is still open. -/
def OpenWhenRetried : List Event → State → Prop
  | [], _ => True
  | e :: es, s =>
    (∀ key content, e = .stream key content → delivered key s.out ≠ [] →
      ∃ w ∈ s.inner, w.key = key ∧ w.muted = false) ∧
    OpenWhenRetried es (step s e)

end Spec

open Spec

/-- `latest` computed from the left. -/
def track (key : Nat) (acc : List Nat) : Event → List Nat
  | .stream k content => if k = key then rows content else acc
  | _ => acc

theorem latest_eq (key : Nat) (es : List Event) (acc : List Nat) :
    es.foldl (track key) acc =
      if es.any (fun e => match e with | .stream k' _ => k' == key | _ => false) then latest key es
      else acc := by
  induction es generalizing acc with
  | nil => simp
  | cons e es ih =>
    rw [List.foldl_cons, ih]
    cases e with
    | stream k content =>
      by_cases h : es.any (fun e => match e with | .stream k' _ => k' == key | _ => false) = true
      · simp [latest, h]
      · simp only [h, latest, track, List.any_cons]
        by_cases hk : k = key
        · simp [hk]
        · simp [hk]
    | error => simp [latest, track]
    | closed => simp [latest, track]
    | poll i => simp [latest, track]
    | pollEmpty => simp [latest, track]

theorem latest_none (key : Nat) (es : List Event)
    (h : ¬ es.any (fun e => match e with | .stream k' _ => k' == key | _ => false) = true) :
    latest key es = [] := by
  induction es with
  | nil => rfl
  | cons e es ih =>
    cases e with
    | stream k content =>
      simp only [List.any_cons, Bool.or_eq_true, not_or] at h
      have hk : k ≠ key := by simpa using h.1
      unfold latest
      simp only [h.2, hk, if_false]
      simpa using ih h.2
    | error => exact ih (by simpa using h)
    | closed => exact ih (by simpa using h)
    | poll i => exact ih (by simpa using h)
    | pollEmpty => exact ih (by simpa using h)

theorem foldl_track_nil (key : Nat) (es : List Event) :
    es.foldl (track key) [] = latest key es := by
  rw [latest_eq]
  split
  · rfl
  · rename_i h; exact (latest_none key es h).symm

/-- The open, unmuted streams with a key. -/
def live (key : Nat) (ws : List Wrapper) : List Wrapper :=
  ws.filter fun w => w.key == key && !w.muted

/-- Per key: at most one unmuted stream; what was delivered and what it will still yield is
the latest stream; without an unmuted stream everything has been delivered. -/
def KeyInv (s : State) (last : List Nat) (key : Nat) : Prop :=
  (live key s.inner = [] ∧ delivered key s.out = last) ∨
  ∃ w, live key s.inner = [w] ∧ delivered key s.out ++ rows w.rest = last ∧
    w.count = (delivered key s.out).length

theorem live_mute_same (key : Nat) (ws : List Wrapper) :
    live key (ws.map (·.mute key)) = [] := by
  unfold live
  rw [List.filter_eq_nil_iff]
  intro w hw
  obtain ⟨v, _, rfl⟩ := List.mem_map.mp hw
  unfold Wrapper.mute
  split
  · simp
  · rename_i h; simp [h]

theorem live_mute_other (key key' : Nat) (h : key ≠ key') (ws : List Wrapper) :
    live key (ws.map (·.mute key')) = live key ws := by
  unfold live
  induction ws with
  | nil => rfl
  | cons w ws ih =>
    rw [List.map_cons, List.filter_cons, List.filter_cons, ih]
    unfold Wrapper.mute
    by_cases hw : w.key = key'
    · have : w.key ≠ key := by rw [hw]; exact fun hh => h hh.symm
      simp [hw]
      intro hh; exact absurd hh.symm h
    · simp [hw]

theorem live_append (key : Nat) (a b : List Wrapper) : live key (a ++ b) = live key a ++ live key b := by
  simp [live]

theorem split_at {α : Type} {l : List α} {i : Nat} {w : α} (h : l[i]? = some w) :
    ∃ a b, l = a ++ w :: b ∧ a.length = i := by
  obtain ⟨hl, he⟩ := List.getElem?_eq_some_iff.mp h
  refine ⟨l.take i, l.drop (i + 1), ?_, by simp; omega⟩
  rw [← he, List.getElem_cons_drop, List.take_append_drop]

theorem delivered_append (key : Nat) (a b : List Out) :
    delivered key (a ++ b) = delivered key a ++ delivered key b := by simp [delivered]

theorem keyInv_pollInner (s : State) (i : Nat) (last : List Nat) (key : Nat)
    (h : KeyInv s last key) (herr : Out.error ∉ (pollInner s i).out) :
    KeyInv (pollInner s i) last key := by
  unfold pollInner at herr ⊢
  cases hw : s.inner[i]? with
  | none => exact h
  | some w =>
    rw [hw] at herr
    simp only at herr ⊢
    obtain ⟨a, b, hab, hlen⟩ := split_at hw
    have herase : s.inner.eraseIdx i = a ++ b := by
      rw [hab, ← hlen, List.eraseIdx_append_of_length_le (Nat.le_refl _)]; simp
    have hset : ∀ v, s.inner.set i v = a ++ v :: b := by
      intro v; rw [hab, ← hlen, List.set_append_right _ _ (Nat.le_refl _)]; simp
    by_cases hm : w.muted = true
    · simp only [hm, if_true]
      have hl : live key (a ++ b) = live key s.inner := by
        rw [hab, live_append, live_append]; simp [live, hm]
      unfold KeyInv at h ⊢
      simp only [herase, hl]; exact h
    · have hm' : w.muted = false := by simpa using hm
      simp only [hm', Bool.false_eq_true, if_false] at herr ⊢
      cases hr : w.rest with
      | nil =>
        simp only [hr] at herr ⊢
        by_cases hk : w.key = key
        · have hlw : live key s.inner = live key a ++ w :: live key b := by
            rw [hab, live_append]; simp [live, hk, hm']
          rcases h with ⟨h1, _⟩ | ⟨v, h1, h2, h3⟩
          · rw [hlw] at h1; simp at h1
          · rw [hlw] at h1
            have ha : live key a = [] := by
              cases hla : live key a with
              | nil => rfl
              | cons x xs => rw [hla] at h1; simp at h1
            rw [ha] at h1
            simp at h1
            obtain ⟨rfl, hb⟩ := h1
            left
            refine ⟨?_, ?_⟩
            · simp only [herase]
              rw [live_append, ha, hb]; rfl
            · rw [hr] at h2; simpa [rows] using h2
        · have hl : live key (a ++ b) = live key s.inner := by
            rw [hab, live_append, live_append]; simp [live, hk]
          unfold KeyInv at h ⊢
          simp only [herase, hl]; exact h
      | cons it rest =>
        cases it with
        | error => simp only [hr] at herr; simp at herr
        | batch bs =>
          simp only [hr] at herr ⊢
          by_cases hk : w.key = key
          · have hlw : live key s.inner = live key a ++ w :: live key b := by
              rw [hab, live_append]; simp [live, hk, hm']
            rcases h with ⟨h1, _⟩ | ⟨v, h1, h2, h3⟩
            · rw [hlw] at h1; simp at h1
            · rw [hlw] at h1
              have ha : live key a = [] := by
                cases hla : live key a with
                | nil => rfl
                | cons x xs => rw [hla] at h1; simp at h1
              rw [ha] at h1
              simp at h1
              obtain ⟨rfl, hb⟩ := h1
              right
              refine ⟨{ w with rest := rest, count := w.count + bs.length }, ?_, ?_, ?_⟩
              · simp only [hset]
                rw [live_append, ha]
                have : live key ({ w with rest := rest, count := w.count + bs.length } :: b) =
                  { w with rest := rest, count := w.count + bs.length } :: live key b := by
                    simp [live, hk, hm']
                simpa [hm', hb] using this
              · rw [delivered_append]
                rw [hr] at h2
                rw [← h2]
                simp [delivered, rows, hk]
              · simp only
                rw [delivered_append, h3]
                simp [delivered, hk]
          · have hl : live key (a ++ { w with rest := rest, count := w.count + bs.length } :: b) =
                live key s.inner := by
              rw [hab, live_append, live_append]; simp [live, hk]
            have hd : delivered key (s.out ++ [Out.batch w.key bs]) = delivered key s.out := by
              rw [delivered_append]; simp [delivered, hk]
            unfold KeyInv at h ⊢
            have hl' : live key (s.inner.set i { w with rest := rest, count := w.count + bs.length }) =
                live key s.inner := by rw [hset]; exact hl
            simp only [hm'] at hl'
            simp only [hl', hd]; exact h

theorem keyInv_step (s : State) (e : Event) (last : List Nat) (key : Nat)
    (h : KeyInv s last key)
    (ho : ∀ k content, e = .stream k content → delivered k s.out ≠ [] →
      ∃ w ∈ s.inner, w.key = k ∧ w.muted = false)
    (hact : ∀ k content, e = .stream k content → s.status = .active)
    (herr : Out.error ∉ (step s e).out) :
    KeyInv (step s e) (track key last e) key := by
  cases e with
  | stream k content =>
    have ha := hact k content rfl
    simp only [step, ha, if_true] at herr ⊢
    by_cases hc : s.inner.any (·.conflicts k) = true
    · simp [hc] at herr
    · simp only [hc, Bool.false_eq_true, if_false] at herr ⊢
      by_cases hk : k = key
      · subst hk
        simp only [track, if_true]
        have hd : delivered k s.out = [] := by
          by_contra hne
          obtain ⟨w, hw, hwk, hwm⟩ := ho k content rfl hne
          have hwl : w ∈ live k s.inner := by
            unfold live; rw [List.mem_filter]; simp [hw, hwk, hwm]
          rcases h with ⟨h1, _⟩ | ⟨v, h1, _, h3⟩
          · rw [h1] at hwl; simp at hwl
          · rw [h1] at hwl
            simp at hwl
            subst hwl
            apply hc
            rw [List.any_eq_true]
            refine ⟨w, hw, ?_⟩
            have : 0 < w.count := by
              rw [h3]; exact List.length_pos_iff.mpr hne
            simp [Wrapper.conflicts, hwk, this]
        right
        refine ⟨⟨k, content, false, 0⟩, ?_, ?_, ?_⟩
        · simp only
          rw [live_append, live_mute_same]
          simp [live]
        · simp only [hd]; simp
        · simp only [hd]; simp
      · simp only [track, hk, if_false]
        have hl : live key (s.inner.map (·.mute k) ++ [⟨k, content, false, 0⟩]) =
            live key s.inner := by
          rw [live_append, live_mute_other key k (fun hh => hk hh.symm)]
          simp [live, hk]
        unfold KeyInv at h ⊢
        simp only [hl]; exact h
  | error =>
    simp only [step, track] at herr ⊢
    split at herr
    · simp at herr
    · rename_i hn; simp only [hn, if_false]; exact h
  | closed =>
    simp only [step, track]
    split <;> exact h
  | poll i =>
    simp only [step, track] at herr ⊢
    split
    · rename_i hn
      rw [if_pos hn] at herr
      exact keyInv_pollInner s i last key h herr
    · exact h
  | pollEmpty =>
    simp only [step, track]
    split <;> exact h

theorem out_prefix (s : State) (e : Event) : ∃ l, (step s e).out = s.out ++ l := by
  cases e with
  | stream k content =>
    simp only [step]
    split
    · split
      · exact ⟨_, rfl⟩
      · exact ⟨[], by simp⟩
    · exact ⟨[], by simp⟩
  | error => simp only [step]; split; exact ⟨_, rfl⟩; exact ⟨[], by simp⟩
  | closed => simp only [step]; split <;> exact ⟨[], by simp⟩
  | poll i =>
    simp only [step]
    split
    · unfold pollInner
      split
      · exact ⟨[], by simp⟩
      · split
        · exact ⟨[], by simp⟩
        · split
          · exact ⟨[], by simp⟩
          · exact ⟨_, rfl⟩
          · exact ⟨_, rfl⟩
    · exact ⟨[], by simp⟩
  | pollEmpty => simp only [step]; split <;> exact ⟨[], by simp⟩

theorem out_prefix_run (es : List Event) (s : State) : ∃ l, (run es s).out = s.out ++ l := by
  induction es generalizing s with
  | nil => exact ⟨[], by simp [run]⟩
  | cons e es ih =>
    obtain ⟨l, hl⟩ := out_prefix s e
    obtain ⟨l', hl'⟩ := ih (step s e)
    refine ⟨l ++ l', ?_⟩
    have : run (e :: es) s = run es (step s e) := rfl
    rw [this, hl', hl, List.append_assoc]

/-- Streams arriving when the receiver is closed do not exist: `closed` comes last among the
received items. -/
def Spec.ClosedLast : List Event → Prop
  | [] => True
  | .closed :: es => ∀ k content, Event.stream k content ∉ es
  | _ :: es => Spec.ClosedLast es

theorem keyInv_run (es : List Event) (s : State) (last : List Nat) (key : Nat)
    (h : KeyInv s last key) (ho : OpenWhenRetried es s)
    (hact : s.status = .active ∨ ∀ k content, Event.stream k content ∉ es)
    (hcl : Spec.ClosedLast es) (herr : Out.error ∉ (run es s).out) :
    KeyInv (run es s) (es.foldl (track key) last) key := by
  induction es generalizing s last with
  | nil => exact h
  | cons e es ih =>
    have hrun : run (e :: es) s = run es (step s e) := rfl
    rw [hrun] at herr ⊢
    rw [List.foldl_cons]
    have herr1 : Out.error ∉ (step s e).out := by
      obtain ⟨l, hl⟩ := out_prefix_run es (step s e)
      rw [hl] at herr
      exact fun hm => herr (List.mem_append_left _ hm)
    have hk := keyInv_step s e last key h ho.1 (by
      rintro k content rfl
      rcases hact with h | h
      · exact h
      · exact absurd (List.mem_cons_self) (h k content)) herr1
    apply ih _ _ hk ho.2 _ _ herr
    · rcases hact with hact | hact
      · cases e with
        | stream k content =>
          left
          simp only [step, hact, if_true] at herr1 ⊢
          split
          · rename_i hc; simp [hc] at herr1
          · rfl
        | error => simp [step, hact] at herr1
        | closed => right; exact hcl
        | poll i =>
          left
          simp only [step]
          split
          · unfold pollInner
            split
            · exact hact
            · split
              · exact hact
              · split <;> exact hact
          · exact hact
        | pollEmpty => left; simp [step, hact]
      · right; exact fun k content hm => hact k content (List.mem_cons_of_mem _ hm)
    · cases e with
      | closed =>
        have : ∀ (l : List Event), (∀ k content, Event.stream k content ∉ l) → Spec.ClosedLast l := by
          intro l
          induction l with
          | nil => intro _; trivial
          | cons x l ih =>
            intro hx
            have hl : ∀ k content, Event.stream k content ∉ l :=
              fun k c hm => hx k c (List.mem_cons_of_mem _ hm)
            cases x with
            | closed => exact hl
            | stream k content => exact ih hl
            | error => exact ih hl
            | poll i => exact ih hl
            | pollEmpty => exact ih hl
        exact this es hcl
      | stream k content => exact hcl
      | error => exact hcl
      | poll i => exact hcl
      | pollEmpty => exact hcl

theorem completed_inner (es : List Event) (s : State)
    (h : s.status = .completed → s.inner = []) :
    (run es s).status = .completed → (run es s).inner = [] := by
  induction es generalizing s with
  | nil => exact h
  | cons e es ih =>
    apply ih
    cases e with
    | stream k content =>
      simp only [step]
      split
      · rename_i ha
        split
        · intro hh; simp at hh
        · intro hh; simp [ha] at hh
      · exact h
    | error => simp only [step]; split; · intro hh; simp at hh
               · exact h
    | closed => simp only [step]; split; · intro hh; simp at hh
                · exact h
    | poll i =>
      simp only [step]
      split
      · rename_i ha
        intro hh
        exfalso
        have : (pollInner s i).status = s.status := by
          unfold pollInner
          split
          · rfl
          · split
            · rfl
            · split <;> rfl
        rw [this] at hh
        rcases ha with ha | ha <;> rw [ha] at hh <;> cases hh
      · exact h
    | pollEmpty =>
      simp only [step]
      split
      · rename_i ha; intro _; exact ha.2
      · exact h

/-- C06 (partial: excludes the case in which the stream that delivered rows of an output partition
has already been read to its end when another attempt's stream arrives). If the output stream
completes and the client saw no error, then for every output partition the client received exactly
the rows of one attempt, the one received last, in order: nothing is missing and nothing twice. -/
theorem C06_output_is_one_attempt_partial (es : List Event) (key : Nat)
    (ho : OpenWhenRetried es State.init) (hcl : Spec.ClosedLast es)
    (hdone : (run es State.init).status = .completed)
    (herr : Out.error ∉ (run es State.init).out) :
    delivered key (run es State.init).out = latest key es := by
  have h := keyInv_run es State.init [] key (Or.inl ⟨rfl, rfl⟩) ho (Or.inl rfl) hcl herr
  have hi := completed_inner es State.init (by intro hh; cases hh) hdone
  rw [foldl_track_nil] at h
  rcases h with ⟨_, h⟩ | ⟨w, h, _⟩
  · exact h
  · rw [hi] at h; simp [live] at h

/-- Attempt 0 of partition 5 is replaced before it delivers rows; partition 6 runs normally. -/
def exampleEvents : List Event :=
  [.stream 5 [.batch [], .batch [1, 2]], .poll 0, .stream 6 [.batch [7]],
   .stream 5 [.batch [3], .batch [4]], .poll 2, .poll 1, .closed, .poll 2, .poll 2, .poll 1,
   .poll 0, .pollEmpty]

example : OpenWhenRetried exampleEvents State.init := by
  simp [exampleEvents, OpenWhenRetried, step, State.init, pollInner, delivered, Wrapper.mute,
    Wrapper.conflicts]

example : (run exampleEvents State.init).status = .completed ∧
    (run exampleEvents State.init).out =
      [.batch 5 [], .batch 5 [3], .batch 6 [7], .batch 5 [4]] ∧
    delivered 5 (run exampleEvents State.init).out = latest 5 exampleEvents ∧
    latest 5 exampleEvents = [3, 4] := by decide

/-- C06: when the stream that delivered rows is still open, a second attempt is reported as an error
to the client, and nothing more is delivered. -/
theorem C06_open_stream_conflict_is_an_error (s : State) (key : Nat) (content : List Item)
    (w : Wrapper) (hs : s.status = .active) (hw : w ∈ s.inner) (hk : w.key = key)
    (hc : 0 < w.count) (es : List Event) :
    (run (.stream key content :: es) s).out = s.out ++ [.error] := by
  have h1 : step s (.stream key content) =
      { s with status := .failed, inner := [], out := s.out ++ [.error] } := by
    have : s.inner.any (·.conflicts key) = true :=
      List.any_eq_true.mpr ⟨w, hw, by simp [Wrapper.conflicts, hk, hc]⟩
    simp [step, hs, this]
  have h2 : ∀ (es : List Event) (t : State), t.status = .failed → (run es t).out = t.out := by
    intro es
    induction es with
    | nil => intro t _; rfl
    | cons e es ih =>
      intro t ht
      have : step t e = t := by cases e <;> simp [step, ht]
      show (run es (step t e)).out = t.out
      rw [this]; exact ih t ht
  show (run es (step s (.stream key content))).out = _
  rw [h1, h2 _ _ rfl]

example : (run [.stream 5 [.batch [1], .batch [2]], .poll 0, .stream 5 [.batch [1]], .poll 0, .closed,
    .pollEmpty] State.init).out = [.batch 5 [1], .error] := by decide

/-- C06 is violated: the first attempt's stream delivers its rows and is read to its end; the task's
region is then retried and the second attempt's stream is added. The client receives every row
twice and no error. -/
theorem C06_rows_delivered_twice (row : Nat) :
    let es : List Event := [.stream 5 [.batch [row]], .poll 0, .poll 0, .stream 5 [.batch [row]],
      .closed, .poll 0, .poll 0, .pollEmpty]
    (run es State.init).status = .completed ∧ Out.error ∉ (run es State.init).out ∧
      delivered 5 (run es State.init).out = [row, row] ∧ latest 5 es = [row] := by
  have h : run [.stream 5 [.batch [row]], .poll 0, .poll 0, .stream 5 [.batch [row]],
      .closed, .poll 0, .poll 0, .pollEmpty] State.init =
      ⟨.completed, [], [.batch 5 [row], .batch 5 [row]]⟩ := by
    simp [run, step, State.init, pollInner, Wrapper.mute]
  simp only [h]
  simp [delivered, latest, rows]

end Verif.Exec.Output
