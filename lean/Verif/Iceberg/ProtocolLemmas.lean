import Verif.Iceberg.Protocol
import Mathlib.Data.List.Basic
import Mathlib.Tactic.SplitIfs

/-! Lemmas about the model of concurrent Iceberg commits. -/

namespace Verif.Iceberg.Protocol

open Verif.Iceberg.Protocol.Spec

variable {M C : Type}

theorem at?_putFile (v w : Nat) (m : M) (fs : List (Nat × M)) :
    at? (putFile v m fs) w = if w = v then some m else at? fs w := by
  simp only [at?, putFile]
  by_cases h : w = v
  · subst h
    simp
  · have h' : ¬ v = w := fun h2 => h h2.symm
    rw [if_neg h, List.find?_cons_of_neg (by simpa using h')]
    congr 1
    induction fs with
    | nil => rfl
    | cons f fs ih =>
      by_cases hf : f.1 = v
      · rw [List.filter_cons_of_neg (by simpa using hf), ih,
          List.find?_cons_of_neg (by rw [hf]; simpa using h')]
      · rw [List.filter_cons_of_pos (by simpa using hf)]
        by_cases hw : f.1 = w
        · simp [hw]
        · rw [List.find?_cons_of_neg (by simpa using hw),
            List.find?_cons_of_neg (by simpa using hw), ih]

theorem at?_some_of_mem {fs : List (Nat × M)} {v : Nat} (h : v ∈ fs.map Prod.fst) :
    (at? fs v).isSome = true := by
  obtain ⟨f, hf, rfl⟩ := List.mem_map.1 h
  simp only [at?, Option.isSome_map, List.find?_isSome]
  exact ⟨f, hf, by simp⟩

/-- A selected version has a file. -/
theorem select_some {h : Option Nat} {fs : List (Nat × M)} {v : Nat} (hv : select h fs = some v) :
    (at? fs v).isSome = true := by
  simp only [select] at hv
  split at hv
  · rename_i w hw
    rw [Option.filter_eq_some_iff] at hw
    obtain rfl := Option.some.inj hv
    exact hw.2
  · exact at?_some_of_mem (List.max?_mem hv)

/-- A hint whose file is there is followed. -/
theorem select_hint {v : Nat} {fs : List (Nat × M)} (h : (at? fs v).isSome = true) :
    select (some v) fs = some v := by
  simp [select, Option.filter, h]

theorem select_isSome {h : Option Nat} {fs : List (Nat × M)} (hf : fs ≠ []) :
    (select h fs).isSome = true := by
  simp only [select]
  split
  · rfl
  · cases hm : (fs.map Prod.fst).max? with
    | some a => rfl
    | none => simp [List.max?_eq_none_iff, hf] at hm

theorem setProc_get (s : St M C) (i j : Nat) (p q : Proc M C) (h : s.procs[i]? = some q) :
    (setProc s i p).procs[j]? = if j = i then some p else s.procs[j]? := by
  simp only [setProc]
  have hlt : i < s.procs.length := by
    rw [List.getElem?_eq_some_iff] at h
    exact h.1
  rw [List.getElem?_set]
  by_cases hj : j = i
  · subst hj; simp [hlt]
  · have : ¬ i = j := fun h => hj h.symm
    simp [this, hj]

theorem run_append (T : Ops M C) (s : St M C) (es fs : List (Nat × Choice)) :
    run T s (es ++ fs) = run T (run T s es) fs := by simp [run]

/-- Invariants of all steps hold after all runs. -/
theorem run_induct (T : Ops M C) {P : St M C → Prop} (es : List (Nat × Choice)) (s : St M C)
    (h0 : P s) (hstep : ∀ s e, e ∈ es → P s → P (step T s e)) : P (run T s es) := by
  induction es generalizing s with
  | nil => exact h0
  | cons e es ih =>
    simp only [run, List.foldl_cons]
    exact ih _ (hstep s e (by simp) h0) fun s e he => hstep s e (by simp [he])

theorem applied_append (T : Ops M C) (m : M) (cs : List C) (c : C) :
    applied T m (cs ++ [c]) = (applied T m cs).bind fun m' => T.apply m' c := by
  induction cs generalizing m with
  | nil =>
    simp only [List.nil_append, applied, Option.bind_some]
    cases T.apply m c <;> rfl
  | cons d cs ih =>
    simp only [List.cons_append, applied]
    cases T.apply m d with
    | none => rfl
    | some m' => exact ih m'

end Verif.Iceberg.Protocol
