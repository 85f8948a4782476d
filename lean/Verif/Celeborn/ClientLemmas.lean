import Verif.Celeborn.Client
import Mathlib.Data.List.Induction

/-! # Lemmas on the shuffle client -/

namespace Verif.Celeborn.Client

open Verif.Catalog

/-- The locations that a message brings, with their shuffles. -/
def Spec.given : Msg → List (Int × Loc)
  | .registered sid (.ok r) =>
    if (r.slots.flatMap fun e => e.2.primary) = [] then r.primary.map fun e => (sid, e.2)
    else (r.slots.flatMap fun e => e.2.primary).map fun l => (sid, l)
  | .pushed sid _ (some l) => [(sid, l)]
  | .reread sid pid (.ok r) =>
    (r.slots.flatMap fun e => e.2.primary.filter fun l => decide (l.id = pid)).map fun l => (sid, l)
  | _ => []

/-- Whether a shuffle is over with a message. -/
def Spec.over (sid : Int) : Msg → Bool
  | .unregistered i (.ok _) => decide (i = sid)
  | .cleanUp i => decide (i = sid)
  | _ => false

/-- The locations of a partition that the client was given since the shuffle was last over. -/
def Spec.known (sid pid : Int) (ms : List Msg) : List Loc :=
  ms.foldl (fun k m => if Spec.over sid m then []
    else k ++ ((Spec.given m).filter fun e => decide (e.1 = sid ∧ e.2.id = pid)).map (·.2)) []

theorem run_snoc (s : State) (ms : List Msg) (m : Msg) :
    (s.run (ms ++ [m])).1 = ((s.run ms).1.step m).1 := by
  induction ms generalizing s with
  | nil => rfl
  | cons x ms ih => simp only [List.cons_append, State.run, ih]

theorem known_snoc (sid pid : Int) (ms : List Msg) (m : Msg) :
    Spec.known sid pid (ms ++ [m]) = if Spec.over sid m then []
      else Spec.known sid pid ms ++ ((Spec.given m).filter fun e => decide (e.1 = sid ∧ e.2.id = pid)).map (·.2) := by
  simp only [Spec.known, List.foldl_append, List.foldl_cons, List.foldl_nil]

theorem find_filter {κ ν : Type} [DecidableEq κ] (m : List (κ × ν)) (p : κ → Bool) (k : κ) :
    find (m.filter fun e => p e.1) k = if p k then find m k else none := by
  induction m with
  | nil => simp [find]
  | cons e m ih =>
    obtain ⟨a, b⟩ := e
    by_cases hk : a = k
    · subst hk
      by_cases ha : p a = true
      · simp [ha, find]
      · simp only [ha, if_false] at ih
        simp [ha, ih]
    · by_cases ha : p a = true
      · simp only [List.filter_cons, ha, if_true, find, hk, if_false, ih]
      · simp only [List.filter_cons, ha, if_false, find, hk, ih, Bool.false_eq_true]

/-- What holds of a history `h` and a latest location for the locations `k`. -/
structure Good (k : List Loc) (h : Option (List Loc)) (latest : Option Loc) : Prop where
  none_iff : h = none ↔ k = []
  from_known : ∀ l ∈ h.getD [], l ∈ k
  all : ∀ l ∈ k, ∃ x ∈ h.getD [], x.uid = l.uid
  nodup : ((h.getD []).map (·.uid)).Nodup
  sorted : (h.getD []).Pairwise fun a b => a.epoch ≤ b.epoch
  latest_none : latest = none ↔ k = []
  latest_max : ∀ l, latest = some l → l ∈ k ∧ ∀ x ∈ k, x.epoch ≤ l.epoch

def Inv (s : State) (K : Int → Int → List Loc) : Prop :=
  ∀ sid pid, Good (K sid pid) (find s.history (sid, pid)) (find s.locations (sid, pid))

theorem Good.learn {k : List Loc} {h : Option (List Loc)} {latest : Option Loc} (g : Good k h latest) (l : Loc) :
    Good (k ++ [l])
      (some (if (h.getD []).any (fun x => decide (x.uid = l.uid)) then h.getD []
        else (h.getD [] ++ [l]).mergeSort (fun a b => decide (a.epoch ≤ b.epoch))))
      (if newer l latest then some l else latest) := by
  obtain ⟨g1, g2, g3, g4, g5, g6, g7⟩ := g
  have last : ∀ x, (if newer l latest then some l
      else latest) = some x → x ∈ k ++ [l] ∧ ∀ y ∈ k ++ [l], y.epoch ≤ x.epoch := by
    intro x hx
    cases hl : latest with
    | none =>
      have hk := g6.1 hl
      subst hk
      simp [hl, newer] at hx
      subst hx
      simp
    | some c =>
      obtain ⟨hc, hm⟩ := g7 c hl
      simp only [hl, newer] at hx
      by_cases hle : c.epoch ≤ l.epoch
      · simp only [hle, decide_true, if_true, Option.some.injEq] at hx
        subst hx
        refine ⟨by simp, ?_⟩
        intro y hy
        rcases List.mem_append.1 hy with hy | hy
        · exact Int.le_trans (hm y hy) hle
        · rw [List.mem_singleton.1 hy]; exact Int.le_refl _
      · simp only [hle, decide_false, Bool.false_eq_true, if_false, Option.some.injEq] at hx
        subst hx
        refine ⟨List.mem_append_left _ hc, ?_⟩
        intro y hy
        rcases List.mem_append.1 hy with hy | hy
        · exact hm y hy
        · rw [List.mem_singleton.1 hy]; omega
  have lnone : (if newer l latest then some l
      else latest) = none ↔ k ++ [l] = [] := by
    cases hl : latest with
    | none => simp [newer]
    | some c => by_cases hle : c.epoch ≤ l.epoch <;> simp [newer, hle]
  by_cases hany : (h.getD []).any (fun x => decide (x.uid = l.uid)) = true
  · rw [if_pos hany]
    refine ⟨by simp, ?_, ?_, g4, g5, lnone, last⟩
    · intro x hx
      exact List.mem_append_left _ (g2 x hx)
    · intro x hx
      rcases List.mem_append.1 hx with hx | hx
      · exact g3 x hx
      · rw [List.mem_singleton.1 hx]
        obtain ⟨y, hy, e⟩ := List.any_eq_true.1 hany
        exact ⟨y, hy, of_decide_eq_true e⟩
  · rw [if_neg hany]
    have perm := List.mergeSort_perm (h.getD [] ++ [l]) (fun a b => decide (a.epoch ≤ b.epoch))
    refine ⟨by simp, ?_, ?_, ?_, ?_, lnone, last⟩
    · intro x hx
      simp only [Option.getD_some, List.mem_mergeSort] at hx
      rcases List.mem_append.1 hx with hx | hx
      · exact List.mem_append_left _ (g2 x hx)
      · exact List.mem_append_right _ hx
    · intro x hx
      simp only [Option.getD_some, List.mem_mergeSort]
      rcases List.mem_append.1 hx with hx | hx
      · obtain ⟨y, hy, e⟩ := g3 x hx
        exact ⟨y, List.mem_append_left _ hy, e⟩
      · exact ⟨x, List.mem_append_right _ hx, rfl⟩
    · simp only [Option.getD_some]
      refine ((perm.map (·.uid)).nodup_iff).2 ?_
      rw [List.map_append, List.nodup_append]
      refine ⟨g4, by simp, ?_⟩
      intro a ha b hb e
      simp only [List.map_cons, List.map_nil, List.mem_singleton] at hb
      obtain ⟨x, hx, rfl⟩ := List.mem_map.1 ha
      exact hany (List.any_eq_true.2 ⟨x, hx, by simp [e, hb]⟩)
    · simp only [Option.getD_some]
      have := List.pairwise_mergeSort (le := fun a b : Loc => decide (a.epoch ≤ b.epoch))
        (fun a b c h1 h2 => by simp at h1 h2 ⊢; omega) (fun a b => by simp; omega) (h.getD [] ++ [l])
      exact this.imp fun h => of_decide_eq_true h

theorem Inv.learn {s : State} {K : Int → Int → List Loc} (h : Inv s K) (sid : Int) (l : Loc) :
    Inv (s.learn sid l) fun i p => K i p ++ if i = sid ∧ l.id = p then [l] else [] := by
  intro i p
  have e1 : find (s.learn sid l).history (i, p) = if i = sid ∧ l.id = p then
      some (if ((find s.history (sid, l.id)).getD []).any (fun x => decide (x.uid = l.uid))
        then (find s.history (sid, l.id)).getD []
        else ((find s.history (sid, l.id)).getD [] ++ [l]).mergeSort (fun a b => decide (a.epoch ≤ b.epoch)))
      else find s.history (i, p) := by
    simp only [State.learn, find_put]
    by_cases hk : i = sid ∧ l.id = p
    · obtain ⟨rfl, rfl⟩ := hk
      simp
    · rw [if_neg hk, if_neg]
      intro h
      cases h
      exact hk ⟨rfl, rfl⟩
  have e2 : find (s.learn sid l).locations (i, p) = if i = sid ∧ l.id = p then
      (if newer l (find s.locations (sid, l.id))
        then some l else find s.locations (sid, l.id))
      else find s.locations (i, p) := by
    simp only [State.learn]
    by_cases hk : i = sid ∧ l.id = p
    · obtain ⟨rfl, rfl⟩ := hk
      generalize newer l (find s.locations (i, l.id)) = b
      cases b <;> simp [find_put]
    · rw [if_neg hk]
      generalize newer l (find s.locations (sid, l.id)) = b
      cases b with
      | false => rfl
      | true =>
        rw [if_pos rfl, find_put, if_neg]
        intro h
        cases h
        exact hk ⟨rfl, rfl⟩
  rw [e1, e2]
  by_cases hk : i = sid ∧ l.id = p
  · rw [if_pos hk, if_pos hk]
    simp only [if_pos hk]
    obtain ⟨rfl, rfl⟩ := hk
    exact (h i l.id).learn l
  · simp only [if_neg hk, List.append_nil]
    exact h i p

theorem Inv.learnAll {s : State} {K : Int → Int → List Loc} (h : Inv s K) (sid : Int) (ls : List Loc) :
    Inv (ls.foldl (fun s l => s.learn sid l) s) fun i p =>
      K i p ++ ((ls.map fun l => (sid, l)).filter fun e => decide (e.1 = i ∧ e.2.id = p)).map (·.2) := by
  induction ls generalizing s K with
  | nil => simpa using h
  | cons l ls ih =>
    have := ih (h.learn sid l)
    simp only [List.foldl_cons, List.map_cons, List.filter_cons]
    refine cast ?_ this
    congr 1
    funext i p
    by_cases hk : i = sid ∧ l.id = p
    · obtain ⟨rfl, rfl⟩ := hk
      simp
    · have : ¬ (sid = i ∧ l.id = p) := fun h => hk ⟨h.1.symm, h.2⟩
      simp [hk, this]

theorem Inv.forget {s : State} {K : Int → Int → List Loc} (h : Inv s K) (sid : Int) :
    Inv (s.forget sid) fun i p => if i = sid then [] else K i p := by
  intro i p
  have e1 := find_filter s.history (fun k => decide (k.1 ≠ sid)) (i, p)
  have e2 := find_filter s.locations (fun k => decide (k.1 ≠ sid)) (i, p)
  simp only [State.forget]
  rw [e1, e2]
  by_cases hi : i = sid
  · simp only [hi, ne_eq, not_true, decide_false, Bool.false_eq_true, if_false, if_true]
    exact ⟨by simp, by simp, by simp, by simp, by simp, by simp, by simp⟩
  · simp only [hi, ne_eq, not_false_eq_true, decide_true, if_true, if_false]
    exact h i p

theorem Inv.same {s s' : State} {K : Int → Int → List Loc} (h : Inv s K) (h1 : s'.history = s.history)
    (h2 : s'.locations = s.locations) : Inv s' K := by
  intro i p
  rw [h1, h2]
  exact h i p

theorem primaries_given (sid : Int) (r : Reservation) :
    (primaries r).map (fun l => (sid, l)) = Spec.given (.registered sid (.ok r)) := by
  simp only [primaries, Spec.given]
  split <;> simp

/-- The invariant of all runs. -/
theorem inv_run (ms : List Msg) : Inv (({} : State).run ms).1 fun i p => Spec.known i p ms := by
  induction ms using List.reverseRecOn with
  | nil =>
    intro i p
    exact ⟨by simp [State.run, find, Spec.known], by simp [State.run, find], by simp [Spec.known],
      by simp [State.run, find], by simp [State.run, find], by simp [State.run, find, Spec.known],
      by simp [State.run, find]⟩
  | append_singleton ms m ih =>
    rw [run_snoc]
    generalize (({} : State).run ms).1 = s at ih
    simp only [known_snoc]
    have keep : ∀ m : Msg, Spec.given m = [] → (∀ i, Spec.over i m = false) →
        (fun i p => if Spec.over i m then [] else Spec.known i p ms ++
          ((Spec.given m).filter fun e => decide (e.1 = i ∧ e.2.id = p)).map (·.2)) =
        fun i p => Spec.known i p ms := by
      intro m h1 h2
      funext i p
      simp [h1, h2]
    cases m with
    | getId job stage =>
      rw [keep _ rfl fun _ => rfl]
      simp only [State.step]
      split <;> exact ih
    | gotId job stage r =>
      rw [keep _ rfl fun _ => rfl]
      simp only [State.step]
      split
      · exact ih.same rfl rfl
      · exact ih
    | gotIds job r =>
      rw [keep _ rfl fun _ => rfl]
      simp only [State.step]
      split
      · exact ih.same rfl rfl
      · exact ih
    | registered sid r =>
      cases r with
      | error e => rw [keep _ rfl fun _ => rfl]; exact ih
      | ok r =>
        have := ih.learnAll sid (primaries r)
        rw [primaries_given] at this
        exact this
    | push sid pid map attempt =>
      rw [keep _ rfl fun _ => rfl]
      simp only [State.step]
      split
      · exact ih
      · exact ih.same rfl rfl
    | pushed sid pid l =>
      cases l with
      | none => rw [keep _ rfl fun _ => rfl]; exact ih
      | some l => exact ih.learnAll sid [l]
    | unregistered sid r =>
      cases r with
      | error e => rw [keep _ rfl fun _ => rfl]; exact ih
      | ok r =>
        refine cast ?_ (ih.forget sid)
        congr 1
        funext i p
        by_cases h : i = sid
        · simp [Spec.over, h]
        · have : ¬ sid = i := fun e => h e.symm
          simp [Spec.over, Spec.given, h, this]
    | cleanUp sid =>
      refine cast ?_ (ih.forget sid)
      congr 1
      funext i p
      by_cases h : i = sid
      · simp [Spec.over, h]
      · have : ¬ sid = i := fun e => h e.symm
        simp [Spec.over, Spec.given, h, this]
    | read sid pid =>
      rw [keep _ rfl fun _ => rfl]
      simp only [State.step]
      split <;> exact ih
    | reread sid pid r =>
      cases r with
      | error e => rw [keep _ rfl fun _ => rfl]; exact ih
      | ok r =>
        have := ih.learnAll sid (r.slots.flatMap fun e => e.2.primary.filter fun l => decide (l.id = pid))
        simp only [State.step]
        split <;> exact this

end Verif.Celeborn.Client
