import Verif.Catalog.Function

/-!
# C86: user functions and tracked objects
-/

namespace Verif.Catalog

variable {α β : Type}

namespace Spec

/-- Two letters that differ at most by the case of an ASCII letter. -/
def SameLetter (a b : Char) : Prop :=
  a = b ∨ (65 ≤ a.toNat ∧ a.toNat ≤ 90 ∧ b.toNat = a.toNat + 32) ∨
    (65 ≤ b.toNat ∧ b.toNat ≤ 90 ∧ a.toNat = b.toNat + 32)

/-- Two names that differ at most by the case of ASCII letters. -/
def SameName (a b : Name) : Prop := List.Forall₂ SameLetter a b

open Classical in
/-- The function of a name after a history, the latest event first. -/
noncomputable def latest (n : Name) : List (FunctionEvent α) → Option (Udf α)
  | [] => none
  | .register u :: evs => if SameName u.name n then some u else latest n evs
  | .drop ref _ :: evs => if ∃ x, ref = [x] ∧ SameName x n then none else latest n evs

end Spec

open Spec

theorem toLower_toNat (c : Char) :
    c.toLower.toNat = if 65 ≤ c.toNat ∧ c.toNat ≤ 90 then c.toNat + 32 else c.toNat := by
  rw [Char.toLower]
  split_ifs with h1 h2 h2
  · show (c.val + ('a'.val - 'A'.val)).toNat = c.toNat + 32
    rw [UInt32.toNat_add]
    show (c.toNat + 32) % _ = _
    omega
  · exact absurd ⟨h1.1, h1.2⟩ h2
  · exact absurd ⟨h2.1, h2.2⟩ h1
  · rfl

theorem char_ext {a b : Char} (h : a.toNat = b.toNat) : a = b :=
  Char.ext (UInt32.toNat.inj h)

theorem toLower_eq_iff (a b : Char) : a.toLower = b.toLower ↔ SameLetter a b := by
  constructor
  · intro h
    have h := congrArg Char.toNat h
    rw [toLower_toNat, toLower_toNat] at h
    split_ifs at h with h1 h2 h2
    · exact .inl (char_ext (by omega))
    · exact .inr (.inl ⟨h1.1, h1.2, h.symm⟩)
    · exact .inr (.inr ⟨h2.1, h2.2, h⟩)
    · exact .inl (char_ext h)
  · intro h
    apply char_ext
    rw [toLower_toNat, toLower_toNat]
    rcases h with rfl | ⟨h1, h2, h3⟩ | ⟨h1, h2, h3⟩
    · rfl
    · rw [if_pos ⟨h1, h2⟩, if_neg (by omega), h3]
    · rw [if_neg (by omega), if_pos ⟨h1, h2⟩, h3]

theorem canonicalName_eq_iff (a b : Name) : canonicalName a = canonicalName b ↔ SameName a b := by
  rw [canonicalName, canonicalName, SameName]
  induction a generalizing b with
  | nil =>
    cases b with
    | nil => simp
    | cons => simp
  | cons x a ih =>
    cases b with
    | nil => simp
    | cons y b =>
      rw [List.map_cons, List.map_cons, List.cons.injEq, ih b, toLower_eq_iff, List.forall₂_cons]

/-- A lookup finds the function registered last under the name and not dropped since, in any
mixture of case. -/
theorem C86_last_registration (evs : List (FunctionEvent α)) (n : Name) :
    getFunction (Functions.run [] evs) n = latest n evs.reverse := by
  suffices h : ∀ evs : List (FunctionEvent α),
      getFunction (Functions.run [] evs.reverse) n = latest n evs by
    have := h evs.reverse
    rwa [List.reverse_reverse] at this
  intro evs
  induction evs with
  | nil => rfl
  | cons e evs ih =>
    rw [List.reverse_cons, Functions.run, List.foldl_append]
    show getFunction (Functions.step (Functions.run [] evs.reverse) e) n = _
    generalize Functions.run [] evs.reverse = fs at ih
    cases e with
    | register u =>
      rw [Functions.step, registerFunction, getFunction, find_put, latest]
      by_cases h : SameName u.name n
      · rw [if_pos h, if_pos ((canonicalName_eq_iff _ _).2 h)]
      · rw [if_neg h, if_neg (fun h' => h ((canonicalName_eq_iff _ _).1 h'))]
        exact ih
    | drop ref ie =>
      rw [Functions.step, latest]
      match ref with
      | [] =>
        rw [if_neg (by simp)]
        exact ih
      | [x] =>
        rw [deregisterFunction, getFunction, find_erase]
        by_cases h : SameName x n
        · rw [if_pos ((canonicalName_eq_iff _ _).2 h), if_pos ⟨x, rfl, h⟩]
        · rw [if_neg (fun h' => h ((canonicalName_eq_iff _ _).1 h')), if_neg (by rintro ⟨y, hy, hs⟩; cases hy; exact h hs)]
          exact ih
      | _ :: _ :: _ =>
        rw [if_neg (by simp)]
        exact ih

/-- Dropping fails exactly if the name has no function and IF EXISTS is not given; names with
several parts are refused. -/
theorem C86_drop_result (fs : Functions α) (ref : List Name) (ie : Bool) :
    (deregisterFunction fs ref ie).1 = .ok () ↔
      ∃ n, ref = [n] ∧ (ie = true ∨ ∃ u, getFunction fs n = some u) := by
  match ref with
  | [] => simp [deregisterFunction]
  | [n] =>
    simp only [deregisterFunction, getFunction, List.cons.injEq, and_true, exists_eq_left']
    cases find fs (canonicalName n) <;> cases ie <;> simp
  | _ :: _ :: _ => simp [deregisterFunction]

/-! ## Listing -/

theorem nameLe_iff (a b : Name) : nameLe a b = true ↔ a.map Char.toNat ≤ b.map Char.toNat := by
  induction a generalizing b with
  | nil => simp [nameLe]
  | cons x a ih =>
    cases b with
    | nil => simp [nameLe]
    | cons y b =>
      rw [nameLe, List.map_cons, List.map_cons, List.cons_le_cons_iff]
      split_ifs with h1 h2
      · simp [h1]
      · simp only [false_iff]
        omega
      · rw [ih]
        have : x.toNat = y.toNat := by omega
        simp [this]

theorem nameLe_total (a b : Name) : nameLe a b = true ∨ nameLe b a = true := by
  rw [nameLe_iff, nameLe_iff]
  exact List.le_total _ _

theorem nameLe_trans (a b c : Name) (h1 : nameLe a b = true) (h2 : nameLe b c = true) :
    nameLe a c = true := by
  rw [nameLe_iff] at h1 h2 ⊢
  exact List.le_trans h1 h2

theorem nameLe_antisymm (a b : Name) (h1 : nameLe a b = true) (h2 : nameLe b a = true) : a = b := by
  rw [nameLe_iff] at h1 h2
  have := List.le_antisymm h1 h2
  exact (List.map_injective_iff.2 fun _ _ h => char_ext h) this

/-- Ascending and without repetition. -/
def Spec.Ascending (l : List (FunctionStatus α)) : Prop :=
  l.Pairwise fun a b => nameLe a.name b.name = true ∧ a.name ≠ b.name

theorem dedupAfter_spec (last : Name) (l : List (FunctionStatus α))
    (hl : ∀ f ∈ l, nameLe last f.name = true)
    (h : l.Pairwise fun a b => nameLe a.name b.name = true) :
    Ascending (dedupAfter last l) ∧
      (∀ f ∈ dedupAfter last l, f ∈ l ∧ nameLe last f.name = true ∧ last ≠ f.name) ∧
      ∀ f ∈ l, f.name = last ∨ ∃ g ∈ dedupAfter last l, g.name = f.name := by
  induction l generalizing last with
  | nil => exact ⟨.nil, (fun _ h => nomatch h), fun _ h => nomatch h⟩
  | cons f l ih =>
    obtain ⟨h1, h2⟩ := List.pairwise_cons.1 h
    rw [dedupAfter]
    split_ifs with hf
    · obtain ⟨a, b, c⟩ := ih last (fun g hg => hl g (List.mem_cons_of_mem _ hg)) h2
      refine ⟨a, fun g hg => ⟨List.mem_cons_of_mem _ (b g hg).1, (b g hg).2⟩, fun g hg => ?_⟩
      rcases List.mem_cons.1 hg with rfl | hg
      · exact .inl hf
      · exact c g hg
    · obtain ⟨a, b, c⟩ := ih f.name h1 h2
      have hlf := hl f List.mem_cons_self
      refine ⟨List.pairwise_cons.2 ⟨fun g hg => (b g hg).2, a⟩, fun g hg => ?_, fun g hg => ?_⟩
      · rcases List.mem_cons.1 hg with rfl | hg
        · exact ⟨List.mem_cons_self, hlf, fun h => hf h.symm⟩
        · obtain ⟨b1, b2, b3⟩ := b g hg
          refine ⟨List.mem_cons_of_mem _ b1, nameLe_trans _ _ _ hlf b2, fun h => ?_⟩
          subst h
          exact b3 (nameLe_antisymm _ _ b2 hlf)
      · rcases List.mem_cons.1 hg with rfl | hg
        · exact .inr ⟨g, List.mem_cons_self, rfl⟩
        · rcases c g hg with h | ⟨k, hk, he⟩
          · exact .inr ⟨f, List.mem_cons_self, h.symm⟩
          · exact .inr ⟨k, List.mem_cons_of_mem _ hk, he⟩

theorem dedupNames_spec (l : List (FunctionStatus α))
    (h : l.Pairwise fun a b => nameLe a.name b.name = true) :
    Ascending (dedupNames l) ∧ (∀ f ∈ dedupNames l, f ∈ l) ∧
      ∀ f ∈ l, ∃ g ∈ dedupNames l, g.name = f.name := by
  cases l with
  | nil => exact ⟨.nil, (fun _ h => nomatch h), fun _ h => nomatch h⟩
  | cons f l =>
    obtain ⟨h1, h2⟩ := List.pairwise_cons.1 h
    obtain ⟨a, b, c⟩ := dedupAfter_spec f.name l h1 h2
    refine ⟨List.pairwise_cons.2 ⟨fun g hg => (b g hg).2, a⟩, fun g hg => ?_, fun g hg => ?_⟩
    · rcases List.mem_cons.1 hg with rfl | hg
      · exact List.mem_cons_self
      · exact List.mem_cons_of_mem _ (b g hg).1
    · rcases List.mem_cons.1 hg with rfl | hg
      · exact ⟨g, List.mem_cons_self, rfl⟩
      · rcases c g hg with h | ⟨k, hk, he⟩
        · exact ⟨f, List.mem_cons_self, h.symm⟩
        · exact ⟨k, List.mem_cons_of_mem _ hk, he⟩

/-- The listing is ascending without repetition, shows only matching functions that exist,
and shows the name of every one. User functions appear under lower-case names. -/
theorem C86_listing (fs : Functions α) (keep : Name → Bool) (system : List (FunctionStatus α))
    (showUser showSystem : Bool) :
    let l := listFunctions fs keep system showUser showSystem
    l.Pairwise (fun a b => a.name.map Char.toNat < b.name.map Char.toNat) ∧
    (∀ f ∈ l, keep f.name = true ∧ ((showSystem = true ∧ f ∈ system) ∨
      (showUser = true ∧ f.info = none ∧ ∃ u, find fs f.name = some u))) ∧
    (showSystem = true → ∀ f ∈ system, keep f.name = true → ∃ g ∈ l, g.name = f.name) ∧
    (showUser = true → ∀ n u, find fs n = some u → keep n = true → ∃ g ∈ l, g.name = n) := by
  intro l
  have hs := insSort_sorted (le := fun a b : FunctionStatus α => nameLe a.name b.name)
    (fun a b => nameLe_total a.name b.name)
    (fun a b c => nameLe_trans a.name b.name c.name)
    ((if showSystem then system.filter fun f => keep f.name else []) ++
      if showUser then ((fs.map (·.1)).filter keep).map fun n => ⟨n, none⟩ else [])
  obtain ⟨h1, h2, h3⟩ := dedupNames_spec _ hs
  refine ⟨?_, fun f hf => ?_, fun hS f hf hk => ?_, fun hU n u hn hk => ?_⟩
  · refine List.Pairwise.imp ?_ h1
    rintro a b ⟨ha, hb⟩
    rw [nameLe_iff] at ha
    rcases List.le_iff_lt_or_eq.1 ha with h | h
    · exact h
    · exact absurd ((List.map_injective_iff.2 fun _ _ h => char_ext h) h) hb
  · have := h2 f hf
    rw [mem_insSort, List.mem_append] at this
    rcases this with h | h
    · split_ifs at h with hS
      · obtain ⟨ha, hb⟩ := List.mem_filter.1 h
        exact ⟨hb, .inl ⟨hS, ha⟩⟩
      · exact nomatch h
    · split_ifs at h with hU
      · obtain ⟨n, hn, rfl⟩ := List.mem_map.1 h
        obtain ⟨ha, hb⟩ := List.mem_filter.1 hn
        refine ⟨hb, .inr ⟨hU, rfl, ?_⟩⟩
        cases hf : find fs n with
        | some u => exact ⟨u, rfl⟩
        | none =>
          obtain ⟨e, he, rfl⟩ := List.mem_map.1 ha
          exact absurd he (find_eq_none.1 hf e.2)
      · exact nomatch h
  · obtain ⟨g, hg, he⟩ := h3 f (by
      rw [mem_insSort, List.mem_append, if_pos hS]
      exact .inl (List.mem_filter.2 ⟨hf, hk⟩))
    exact ⟨g, hg, he⟩
  · obtain ⟨g, hg, he⟩ := h3 ⟨n, none⟩ (by
      rw [mem_insSort, List.mem_append, if_pos hU]
      exact .inr (List.mem_map.2 ⟨n, List.mem_filter.2
        ⟨List.mem_map.2 ⟨_, mem_of_find hn, rfl⟩, hk⟩, rfl⟩))
    exact ⟨g, hg, he⟩

theorem insBy_of_ne {le : FunctionStatus α → FunctionStatus α → Bool} (p : FunctionStatus α → Bool)
    (a : FunctionStatus α) (l : List (FunctionStatus α)) (ha : p a = false) :
    (l.insBy le a).filter p = l.filter p := by
  induction l with
  | nil => simp [List.insBy, ha]
  | cons b l ih =>
    rw [List.insBy]
    split_ifs
    · simp [ha]
    · rw [List.filter_cons, List.filter_cons, ih]

theorem insBy_of_eq {le : FunctionStatus α → FunctionStatus α → Bool} (p : FunctionStatus α → Bool)
    (a : FunctionStatus α) (l : List (FunctionStatus α)) (ha : p a = true)
    (hl : ∀ b, p b = true → le a b = true) :
    (l.insBy le a).filter p = a :: l.filter p := by
  induction l with
  | nil => simp [List.insBy, ha]
  | cons b l ih =>
    rw [List.insBy]
    split_ifs with h
    · simp [ha]
    · have hb : p b = false := by
        cases hb : p b with
        | false => rfl
        | true => exact absurd (hl b hb) h
      rw [List.filter_cons, List.filter_cons, hb, ih]
      rfl

theorem nameLe_refl (a : Name) : nameLe a a = true := (nameLe_total a a).elim id id

theorem insSort_filter (n : Name) (l : List (FunctionStatus α)) :
    (l.insSort fun a b => nameLe a.name b.name).filter (fun f => decide (f.name = n)) =
      l.filter fun f => decide (f.name = n) := by
  induction l with
  | nil => rfl
  | cons a l ih =>
    show (List.insBy _ a (l.insSort _)).filter _ = _
    by_cases h : a.name = n
    · rw [insBy_of_eq _ a _ (decide_eq_true h), ih, List.filter_cons, if_pos (decide_eq_true h)]
      intro b hb
      rw [h, ← of_decide_eq_true hb]
      exact nameLe_refl _
    · rw [insBy_of_ne _ a _ (decide_eq_false h), ih, List.filter_cons,
        if_neg (by rw [decide_eq_true_eq]; exact h)]

theorem dedupAfter_head (last : Name) (l : List (FunctionStatus α)) (n : Name) (hn : n ≠ last)
    (h : l.Pairwise fun a b => nameLe a.name b.name = true) :
    (dedupAfter last l).find? (fun f => decide (f.name = n)) =
      l.find? fun f => decide (f.name = n) := by
  induction l generalizing last with
  | nil => rfl
  | cons f l ih =>
    obtain ⟨h1, h2⟩ := List.pairwise_cons.1 h
    rw [dedupAfter]
    by_cases hf : f.name = last
    · rw [if_pos hf, ih last hn h2, List.find?_cons_of_neg]
      rw [decide_eq_true_eq, hf]
      exact fun h => hn h.symm
    · rw [if_neg hf]
      by_cases hfn : f.name = n
      · rw [List.find?_cons_of_pos (by simp [hfn]), List.find?_cons_of_pos (by simp [hfn])]
      · rw [List.find?_cons_of_neg (by simp [hfn]), List.find?_cons_of_neg (by simp [hfn])]
        exact ih f.name (fun h => hfn h.symm) h2

theorem dedupNames_head (l : List (FunctionStatus α)) (n : Name)
    (h : l.Pairwise fun a b => nameLe a.name b.name = true) :
    (dedupNames l).find? (fun f => decide (f.name = n)) = l.find? fun f => decide (f.name = n) := by
  cases l with
  | nil => rfl
  | cons f l =>
    obtain ⟨h1, h2⟩ := List.pairwise_cons.1 h
    rw [dedupNames]
    by_cases hfn : f.name = n
    · rw [List.find?_cons_of_pos (by simp [hfn]), List.find?_cons_of_pos (by simp [hfn])]
    · rw [List.find?_cons_of_neg (by simp [hfn]), List.find?_cons_of_neg (by simp [hfn])]
      exact dedupAfter_head f.name l n (fun h => hfn h.symm) h2

/-- Under a name that both a system function and a user function have, the listing shows the
first system function of this name. -/
theorem C86_listing_prefers_system (fs : Functions α) (keep : Name → Bool)
    (system : List (FunctionStatus α)) (showUser : Bool) (f : FunctionStatus α)
    (hf : system.find? (fun g => decide (g.name = f.name)) = some f) (hk : keep f.name = true) :
    f ∈ listFunctions fs keep system showUser true ∧
      ∀ g ∈ listFunctions fs keep system showUser true, g.name = f.name → g = f := by
  have hs := insSort_sorted (le := fun a b : FunctionStatus α => nameLe a.name b.name)
    (fun a b => nameLe_total a.name b.name)
    (fun a b c => nameLe_trans a.name b.name c.name)
    ((system.filter fun f => keep f.name) ++
      if showUser then ((fs.map (·.1)).filter keep).map fun n => ⟨n, none⟩ else [])
  have hh := dedupNames_head _ f.name hs
  have hfind : ∀ l : List (FunctionStatus α), l.find? (fun g => decide (g.name = f.name)) =
      (l.filter fun g => decide (g.name = f.name)).head? := fun l => (List.head?_filter).symm
  rw [hfind, hfind, insSort_filter, ← hfind, ← hfind, List.find?_append] at hh
  have hsys : (system.filter fun f => keep f.name).find? (fun g => decide (g.name = f.name)) =
      some f := by
    rw [List.find?_filter, ← hf]
    congr 1
    funext g
    by_cases hg : g.name = f.name
    · simp [hg, hk]
    · simp [hg]
  rw [hsys, Option.some_or] at hh
  have hmem : f ∈ listFunctions fs keep system showUser true := List.mem_of_find?_eq_some hh
  refine ⟨hmem, fun g hg he => ?_⟩
  have hp := (C86_listing fs keep system showUser true).1
  have key : ∀ l : List (FunctionStatus α),
      l.Pairwise (fun a b => a.name.map Char.toNat < b.name.map Char.toNat) →
      f ∈ l → g ∈ l → g = f := by
    intro l
    induction l with
    | nil => exact fun _ h => nomatch h
    | cons a l ih =>
      intro hp h1 h2
      obtain ⟨hp1, hp2⟩ := List.pairwise_cons.1 hp
      rcases List.mem_cons.1 h1 with h1 | h1 <;> rcases List.mem_cons.1 h2 with h2 | h2
      · rw [h1, h2]
      · have := hp1 g h2
        rw [he, h1] at this
        exact absurd this (List.lt_irrefl _)
      · have := hp1 f h1
        rw [← he, h2] at this
        exact absurd this (List.lt_irrefl _)
      · exact ih hp2 h1 h2
  exact key _ hp hmem hg

/-- Describing a name shows the user function before the first system function, in any mixture
of case. -/
theorem C86_describe (fs : Functions α) (system : List (FunctionStatus α)) (n : Name) :
    (∀ u, getFunction fs n = some u → getFunctionStatus fs [n] system = .ok ⟨canonicalName n, none⟩) ∧
    (getFunction fs n = none → ∀ f, getFunctionStatus fs [n] system = .ok f ↔
      ∃ before after, system = before ++ f :: after ∧ SameName f.name n ∧
        ∀ g ∈ before, ¬SameName g.name n) := by
  constructor
  · intro u hu
    rw [getFunction] at hu
    simp [getFunctionStatus, hu]
  · intro hn f
    rw [getFunction] at hn
    simp only [getFunctionStatus, hn, Option.isSome_none, Bool.false_eq_true, if_false]
    have : (∃ before after, system = before ++ f :: after ∧ SameName f.name n ∧
        ∀ g ∈ before, ¬SameName g.name n) ↔
        system.find? (fun f => decide (canonicalName f.name = canonicalName n)) = some f := by
      rw [List.find?_eq_some_iff_append]
      simp only [decide_eq_true_eq, canonicalName_eq_iff, Bool.not_eq_true', decide_eq_false_iff_not]
      constructor
      · rintro ⟨b, a, h1, h2, h3⟩
        exact ⟨h2, b, a, h1, h3⟩
      · rintro ⟨h2, b, a, h1, h3⟩
        exact ⟨b, a, h1, h2, h3⟩
    rw [this]
    cases system.find? (fun f => decide (canonicalName f.name = canonicalName n)) <;> simp

/-! ## The tracker -/

/-- The functions among the objects handed over. -/
def Spec.functionsOf (os : List (Sum α β)) : List α := os.filterMap Sum.getLeft?

/-- The plans among the objects handed over. -/
def Spec.plansOf (os : List (Sum α β)) : List β := os.filterMap Sum.getRight?

theorem tracker_functions (os : List (Sum α β)) (t : Tracker α β)
    (hb : t.nextFunction + os.length < 2 ^ 64) :
    (t.run os).2.nextFunction = t.nextFunction + (functionsOf os).length ∧
      (∀ k, k < t.nextFunction → (t.run os).2.getFunction k = t.getFunction k) ∧
      ∀ k, k < (functionsOf os).length →
        (t.run os).2.getFunction (t.nextFunction + k) = (functionsOf os)[k]? := by
  induction os generalizing t with
  | nil => exact ⟨rfl, fun _ _ => rfl, fun _ h => nomatch h⟩
  | cons o os ih =>
    rw [List.length_cons] at hb
    cases o with
    | inl f =>
      have hn : (t.trackFunction f).2.nextFunction = t.nextFunction + 1 := Nat.mod_eq_of_lt (by omega)
      obtain ⟨h1, h2, h3⟩ := ih (t.trackFunction f).2 (by rw [hn]; omega)
      rw [hn] at h1 h2 h3
      have hf : functionsOf (.inl f :: os) = f :: functionsOf os := rfl
      rw [hf, List.length_cons]
      refine ⟨by show ((t.trackFunction f).2.run os).2.nextFunction = _; rw [h1]; omega,
        fun k hk => ?_, fun k hk => ?_⟩
      · show ((t.trackFunction f).2.run os).2.getFunction k = _
        rw [h2 k (by omega)]
        show find (put t.functions t.nextFunction f) k = _
        rw [find_put, if_neg (by omega)]
        rfl
      · show ((t.trackFunction f).2.run os).2.getFunction _ = _
        cases k with
        | zero =>
          rw [h2 _ (by omega)]
          show find (put t.functions t.nextFunction f) _ = _
          rw [find_put, Nat.add_zero, if_pos rfl]
          rfl
        | succ k =>
          have := h3 k (by omega)
          rw [List.getElem?_cons_succ, ← this]
          congr 1
          omega
    | inr p =>
      obtain ⟨h1, h2, h3⟩ := ih (t.trackPlan p).2
        (by show t.nextFunction + os.length < _; omega)
      exact ⟨h1, h2, h3⟩

theorem tracker_plans (os : List (Sum α β)) (t : Tracker α β)
    (hb : t.nextPlan + os.length < 2 ^ 64) :
    (t.run os).2.nextPlan = t.nextPlan + (plansOf os).length ∧
      (∀ k, k < t.nextPlan → (t.run os).2.getPlan k = t.getPlan k) ∧
      ∀ k, k < (plansOf os).length → (t.run os).2.getPlan (t.nextPlan + k) = (plansOf os)[k]? := by
  induction os generalizing t with
  | nil => exact ⟨rfl, fun _ _ => rfl, fun _ h => nomatch h⟩
  | cons o os ih =>
    rw [List.length_cons] at hb
    cases o with
    | inr f =>
      have hn : (t.trackPlan f).2.nextPlan = t.nextPlan + 1 := Nat.mod_eq_of_lt (by omega)
      obtain ⟨h1, h2, h3⟩ := ih (t.trackPlan f).2 (by rw [hn]; omega)
      rw [hn] at h1 h2 h3
      have hf : plansOf (.inr f :: os : List (Sum α β)) = f :: plansOf os := rfl
      rw [hf, List.length_cons]
      refine ⟨by show ((t.trackPlan f).2.run os).2.nextPlan = _; rw [h1]; omega,
        fun k hk => ?_, fun k hk => ?_⟩
      · show ((t.trackPlan f).2.run os).2.getPlan k = _
        rw [h2 k (by omega)]
        show find (put t.plans t.nextPlan f) k = _
        rw [find_put, if_neg (by omega)]
        rfl
      · show ((t.trackPlan f).2.run os).2.getPlan _ = _
        cases k with
        | zero =>
          rw [h2 _ (by omega)]
          show find (put t.plans t.nextPlan f) _ = _
          rw [find_put, Nat.add_zero, if_pos rfl]
          rfl
        | succ k =>
          have := h3 k (by omega)
          rw [List.getElem?_cons_succ, ← this]
          congr 1
          omega
    | inl p =>
      obtain ⟨h1, h2, h3⟩ := ih (t.trackFunction p).2
        (by show t.nextPlan + os.length < _; omega)
      exact ⟨h1, h2, h3⟩

theorem tracker_append (t : Tracker α β) (a b : List (Sum α β)) :
    (t.run (a ++ b)).2 = ((t.run a).2.run b).2 := by
  induction a generalizing t with
  | nil => rfl
  | cons o a ih => cases o <;> exact ih _

/-- A function or a plan handed over is returned by the number it was given, whatever was and
is handed over before and after. -/
theorem C86_tracked (before after : List (Sum α β)) (o : Sum α β)
    (hb : before.length + 1 + after.length < 2 ^ 64) :
    let t := (Tracker.init.run before).2
    let final := (Tracker.init.run (before ++ o :: after)).2
    match o with
    | .inl f => final.getFunction (t.trackFunction f).1 = some f
    | .inr p => final.getPlan (t.trackPlan p).1 = some p := by
  intro t final
  have hfin : final = (t.run (o :: after)).2 := tracker_append _ _ _
  have h1 := (tracker_functions before Tracker.init (by show 0 + _ < _; omega)).1
  have h2 := (tracker_plans before Tracker.init (by show 0 + _ < _; omega)).1
  have hlf : (functionsOf before).length ≤ before.length := List.length_filterMap_le _ _
  have hlp : (plansOf before).length ≤ before.length := List.length_filterMap_le _ _
  cases o with
  | inl f =>
    have := (tracker_functions (.inl f :: after) t (by
      show (Tracker.init.run before).2.nextFunction + _ < _
      rw [h1, List.length_cons]
      show 0 + _ + _ < _
      omega)).2.2 0 (Nat.succ_pos _)
    dsimp only
    rw [hfin]
    exact this
  | inr p =>
    have := (tracker_plans (.inr p :: after) t (by
      show (Tracker.init.run before).2.nextPlan + _ < _
      rw [h2, List.length_cons]
      show 0 + _ + _ < _
      omega)).2.2 0 (Nat.succ_pos _)
    dsimp only
    rw [hfin]
    exact this

/-! ## Examples and negation -/

section Examples

/-- A history: `F` is registered, replaced as `f`, and `g` is dropped as `G`. -/
def sampleFunctions : List (FunctionEvent Nat) :=
  [.register ⟨"F".toList, 1⟩, .register ⟨"g".toList, 2⟩, .register ⟨"f".toList, 3⟩,
   .drop ["G".toList] false, .register ⟨"Upper".toList, 4⟩]

example : (getFunction (Functions.run [] sampleFunctions) "F".toList).map (·.body) = some 3 ∧
    (getFunction (Functions.run [] sampleFunctions) "g".toList) = none := by
  decide +kernel

/-- System functions. -/
def sampleSystem : List (FunctionStatus Nat) := [⟨"upper".toList, some 1⟩, ⟨"abs".toList, some 2⟩]

example : (listFunctions (Functions.run [] sampleFunctions) (fun _ => true) sampleSystem true true).map
    (fun f => (f.name, f.info)) =
      [("abs".toList, some 2), ("f".toList, none), ("upper".toList, some 1)] := by
  decide +kernel

example : sampleSystem.find? (fun g => decide (g.name = "abs".toList)) = some ⟨"abs".toList, some 2⟩ := by
  decide +kernel

example : (deregisterFunction (Functions.run [] sampleFunctions) ["UPPER".toList] false).1 = .ok () := by
  decide +kernel

/-- A user function that replaces a system function is described as the user function, but
listed as the system function. -/
theorem C86_listing_and_description_disagree :
    let fs := Functions.run [] sampleFunctions
    getFunctionStatus fs ["upper".toList] sampleSystem = .ok ⟨"upper".toList, none⟩ ∧
      ⟨"upper".toList, none⟩ ∉ listFunctions fs (fun _ => true) sampleSystem true true := by
  decide +kernel

example : ((Tracker.init.run [.inl 5, .inr 'a', .inl 7, .inr 'b'] : List Nat × Tracker Nat Char).1) =
    [0, 0, 1, 1] := by
  decide +kernel

end Examples

end Verif.Catalog
