import Verif.Arrays.MapFrom
/-!
# Lemmas on building maps
-/
namespace Verif.Arrays

variable {κ ν μ : Type} [DecidableEq κ]

/-! ## Association lists in the order of first occurrence -/

/-- Insert or overwrite. -/
def upsert : List (κ × ν) → κ → ν → List (κ × ν)
  | [], k, v => [(k, v)]
  | (k', v') :: r, k, v => if k' = k then (k', v) :: r else (k', v') :: upsert r k v

/-- All entries one after the other. -/
def upserts : List (κ × ν) → List (κ × ν) → List (κ × ν)
  | acc, [] => acc
  | acc, e :: es => upserts (upsert acc e.1 e.2) es

theorem upserts_append (acc es es' : List (κ × ν)) :
    upserts acc (es ++ es') = upserts (upserts acc es) es' := by
  induction es generalizing acc with
  | nil => rfl
  | cons e es ih => simp [upserts, ih]

theorem upsert_map_snd (f : ν → μ) (l : List (κ × ν)) (k : κ) (v : ν) :
    upsert (l.map (fun e : κ × ν => (e.1, f e.2))) k (f v) =
      (upsert l k v).map (fun e : κ × ν => (e.1, f e.2)) := by
  induction l with
  | nil => rfl
  | cons e l ih =>
    obtain ⟨k', v'⟩ := e
    by_cases h : k' = k <;> simp [upsert, h, ih]

theorem upserts_map_snd (f : ν → μ) (acc es : List (κ × ν)) :
    upserts (acc.map (fun e : κ × ν => (e.1, f e.2))) (es.map (fun e : κ × ν => (e.1, f e.2))) =
      (upserts acc es).map (fun e : κ × ν => (e.1, f e.2)) := by
  induction es generalizing acc with
  | nil => rfl
  | cons e es ih => simp [upserts, upsert_map_snd, ih]

theorem upsert_map_some (l : List (κ × ν)) (k : κ) (v : ν) :
    upsert (l.map (fun e : κ × ν => (some e.1, e.2))) (some k) v =
      (upsert l k v).map (fun e : κ × ν => (some e.1, e.2)) := by
  induction l with
  | nil => rfl
  | cons e l ih =>
    obtain ⟨k', v'⟩ := e
    by_cases h : k' = k <;> simp [upsert, h, ih]

theorem upserts_map_some (acc es : List (κ × ν)) :
    upserts (acc.map (fun e : κ × ν => (some e.1, e.2))) (es.map (fun e : κ × ν => (some e.1, e.2))) =
      (upserts acc es).map (fun e : κ × ν => (some e.1, e.2)) := by
  induction es generalizing acc with
  | nil => rfl
  | cons e es ih => simp [upserts, upsert_map_some, ih]

theorem upsert_keys (l : List (κ × ν)) (k : κ) (v : ν) :
    (upsert l k v).map Prod.fst =
      if k ∈ l.map Prod.fst then l.map Prod.fst else l.map Prod.fst ++ [k] := by
  induction l with
  | nil => simp [upsert]
  | cons e l ih =>
    obtain ⟨k', v'⟩ := e
    by_cases h : k' = k
    · simp [upsert, h]
    · have hk : ¬ k = k' := fun h' => h h'.symm
      simp only [upsert, if_neg h, List.map_cons, ih, List.mem_cons, hk, false_or]
      split <;> simp

theorem upsert_lookup (l : List (κ × ν)) (k : κ) (v : ν) (j : κ) :
    (upsert l k v).lookup j = if j = k then some v else l.lookup j := by
  induction l with
  | nil =>
    by_cases h : j = k
    · simp [upsert, h]
    · have hb : (j == k) = false := by simpa using h
      simp [upsert, h, List.lookup, hb]
  | cons e l ih =>
    obtain ⟨k', v'⟩ := e
    by_cases hk : k' = k
    · subst hk
      by_cases h : j = k'
      · simp [upsert, h]
      · have hb : (j == k') = false := by simpa using h
        simp [upsert, h, List.lookup, hb]
    · simp only [upsert, if_neg hk]
      by_cases h : j = k'
      · subst h
        simp [List.lookup, hk]
      · have hb : (j == k') = false := by simpa using h
        simp only [List.lookup, hb, ih]

/-! ## The entries of a row -/

/-- The position of a key. -/
def posOf (k : κ) : List κ → Option Nat
  | [] => none
  | j :: js => if k = j then some 0 else (posOf k js).map (· + 1)

theorem posOf_none (k : κ) (l : List κ) : posOf k l = none ↔ k ∉ l := by
  induction l with
  | nil => simp [posOf]
  | cons j js ih =>
    by_cases h : k = j
    · simp [posOf, h]
    · simp [posOf, h, ih]

theorem posOf_append (k j : κ) (l : List κ) :
    posOf k (l ++ [j]) = match posOf k l with
      | some i => some i
      | none => if k = j then some l.length else none := by
  induction l with
  | nil => by_cases h : k = j <;> simp [posOf, h]
  | cons a l ih =>
    by_cases h : k = a
    · simp [posOf, h]
    · simp only [List.cons_append, posOf, if_neg h, ih]
      cases posOf k l with
      | some i => simp
      | none =>
        by_cases hj : k = j <;> simp [hj]

theorem upsert_set (l : List (κ × ν)) (k : κ) (v : ν) (i : Nat)
    (h : posOf k (l.map Prod.fst) = some i) :
    (upsert l k v).map Prod.snd = (l.map Prod.snd).set i v := by
  induction l generalizing i with
  | nil => simp [posOf] at h
  | cons e l ih =>
    obtain ⟨k', v'⟩ := e
    by_cases hk : k = k'
    · simp [posOf, hk] at h
      subst h
      simp [upsert, hk]
    · simp only [List.map_cons, posOf, if_neg hk, Option.map_eq_some_iff] at h
      obtain ⟨j, hj, rfl⟩ := h
      have hk' : ¬ k' = k := fun h' => hk h'.symm
      simp [upsert, hk', ih j hj]

theorem upsert_new (l : List (κ × ν)) (k : κ) (v : ν) (h : k ∉ l.map Prod.fst) :
    upsert l k v = l ++ [(k, v)] := by
  induction l with
  | nil => rfl
  | cons e l ih =>
    obtain ⟨k', v'⟩ := e
    simp only [List.map_cons, List.mem_cons, not_or] at h
    have hk' : ¬ k' = k := fun h' => h.1 h'.symm
    simp [upsert, hk', ih h.2]

/-- The state after some entries of a row whose association list is `a`. -/
structure RowInv (M : List Bool) (V : List Nat) (O : List Nat) (c : Nat) (p : List (Option κ))
    (a : List (Option κ × Nat)) (st : DedupSt κ) : Prop where
  mask : ∃ m, st.mask = M ++ m ∧ m.length = p.length ∧ maskFilter p m = a.map Prod.fst
  vals : st.valueIndices = V ++ a.map Prod.snd
  offs : st.offsets = O
  last : st.lastOffset = c + a.length
  seen : ∀ k, st.seen.lookup k = (posOf k (a.map Prod.fst)).map (V.length + ·)

theorem maskFilter_snoc {α : Type} (p : List α) (m : List Bool) (x : α) (b : Bool)
    (h : m.length = p.length) :
    maskFilter (p ++ [x]) (m ++ [b]) = maskFilter p m ++ (if b then [x] else []) := by
  induction p generalizing m with
  | nil =>
    cases m with
    | nil => cases b <;> simp [maskFilter]
    | cons _ _ => simp at h
  | cons y p ih =>
    cases m with
    | nil => simp at h
    | cons b' m =>
      have h' : m.length = p.length := by simpa using h
      cases b' <;> simp [maskFilter, ih m h']

theorem rowInv_step (M : List Bool) (V O : List Nat) (c : Nat) (p : List (Option κ))
    (a : List (Option κ × Nat)) (st : DedupSt κ) (hi : RowInv M V O c p a st) (k : Option κ)
    (vi : Nat) :
    ∃ st', dedupEntry true k vi st = some st' ∧
      RowInv M V O c (p ++ [k]) (upsert a k vi) st' := by
  obtain ⟨⟨m, hm, hml, hmf⟩, hv, ho, hl, hs⟩ := hi
  cases hp : posOf k (a.map Prod.fst) with
  | some i =>
    have hlook : st.seen.lookup k = some (V.length + i) := by rw [hs, hp]; rfl
    have hmem : k ∈ a.map Prod.fst := by
      by_cases hc : k ∈ a.map Prod.fst
      · exact hc
      · rw [(posOf_none k _).mpr hc] at hp; cases hp
    have hkeys : (upsert a k vi).map Prod.fst = a.map Prod.fst := by
      rw [upsert_keys, if_pos hmem]
    refine ⟨_, by simp only [dedupEntry, hlook, if_true]; rfl, ?_⟩
    refine ⟨⟨m ++ [false], by simp [hm], by simp [hml], ?_⟩, ?_, ho, ?_, ?_⟩
    · rw [maskFilter_snoc p m k false hml, hmf, hkeys]; simp
    · simp only [hv]
      rw [upsert_set a k vi i hp, List.set_append_right _ _ (by omega)]
      congr 2; omega
    · have := congrArg List.length hkeys
      simp only [List.length_map] at this
      simp only [hl, this]
    · intro j; simp only [hs, hkeys]
  | none =>
    have hlook : st.seen.lookup k = none := by rw [hs, hp]; rfl
    have hnm : k ∉ a.map Prod.fst := (posOf_none k _).mp hp
    have hup := upsert_new a k vi hnm
    refine ⟨_, by simp only [dedupEntry, hlook]; rfl, ?_⟩
    rw [hup]
    refine ⟨⟨m ++ [true], by simp [hm], by simp [hml], ?_⟩, ?_, ho, ?_, ?_⟩
    · rw [maskFilter_snoc p m k true hml, hmf]; simp
    · simp [hv]
    · simp only [hl, List.length_append, List.length_singleton]; omega
    · intro j
      simp only [List.lookup, List.map_append, List.map_cons, List.map_nil, posOf_append]
      by_cases hj : j = k
      · subst hj
        simp only [beq_self_eq_true, hp, if_true, Option.map_some]
        simp [hv]
      · have hb : (j == k) = false := by simpa using hj
        simp only [hb, hs, if_neg hj]
        cases posOf j (a.map Prod.fst) <;> rfl

theorem rowInv_entries (M : List Bool) (V O : List Nat) (c : Nat) (ks p : List (Option κ))
    (a : List (Option κ × Nat)) (st : DedupSt κ) (hi : RowInv M V O c p a st) (vi : Nat) :
    ∃ st', dedupEntries true ks vi st = some st' ∧
      RowInv M V O c (p ++ ks) (upserts a (ks.zip (List.range' vi ks.length))) st' := by
  induction ks generalizing p a st vi with
  | nil => exact ⟨st, rfl, by simpa [upserts] using hi⟩
  | cons k ks ih =>
    obtain ⟨st1, h1, hi1⟩ := rowInv_step M V O c p a st hi k vi
    obtain ⟨st2, h2, hi2⟩ := ih (p ++ [k]) (upsert a k vi) st1 hi1 (vi + 1)
    refine ⟨st2, by simp only [dedupEntries, h1, h2], ?_⟩
    rw [List.append_assoc, List.singleton_append] at hi2
    simpa [List.range'_succ, upserts] using hi2

/-- Without the last-value-wins policy a repeated key is an error and nothing else changes. -/
theorem dedupEntries_strict (ks : List (Option κ)) (vi : Nat) (st : DedupSt κ) :
    dedupEntries false ks vi st =
      if ks.Nodup ∧ ∀ k ∈ ks, st.seen.lookup k = none then dedupEntries true ks vi st else none := by
  induction ks generalizing vi st with
  | nil => simp [dedupEntries]
  | cons k ks ih =>
    cases hk : st.seen.lookup k with
    | some o =>
      rw [if_neg (by intro ⟨_, h⟩; rw [h k (by simp)] at hk; cases hk)]
      simp [dedupEntries, dedupEntry, hk]
    | none =>
      simp only [dedupEntries, dedupEntry, hk, ih]
      have hiff : (ks.Nodup ∧ ∀ j ∈ ks, List.lookup j ((k, st.valueIndices.length) :: st.seen) = none) ↔
          ((k :: ks).Nodup ∧ ∀ j ∈ k :: ks, st.seen.lookup j = none) := by
        constructor
        · rintro ⟨hn, hall⟩
          have hnot : k ∉ ks := by
            intro hmem
            have := hall k hmem
            simp [List.lookup] at this
          refine ⟨List.nodup_cons.mpr ⟨hnot, hn⟩, ?_⟩
          intro j hj
          rcases List.mem_cons.mp hj with rfl | hj'
          · exact hk
          · have hne : (j == k) = false := by
              simp only [beq_eq_false_iff_ne]; rintro rfl; exact hnot hj'
            have := hall j hj'
            simpa only [List.lookup, hne] using this
        · rintro ⟨hn, hall⟩
          obtain ⟨hnot, hn⟩ := List.nodup_cons.mp hn
          refine ⟨hn, ?_⟩
          intro j hj
          have hne : (j == k) = false := by
            simp only [beq_eq_false_iff_ne]; rintro rfl; exact hnot hj
          simpa only [List.lookup, hne] using hall j (by simp [hj])
      simp only [hiff]

end Verif.Arrays
