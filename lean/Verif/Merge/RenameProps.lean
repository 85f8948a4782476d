import Verif.Merge.Rename
import Verif.Merge.RowLemmas
import Mathlib.Data.List.Perm.Subperm
import Mathlib.Data.List.Nodup
import Mathlib.Data.List.Range

/-! # C81: a column of a MERGE statement means the column of that name -/

namespace Verif.Merge

open Verif.Opt (Row)

/-- **C81.** Names are compared as they are or, if case does not matter, after turning A to Z into a to z. -/
theorem C81_names_equal (a b : Name) :
    (namesEqual true a b = true ↔ a = b) ∧
      (namesEqual false a b = true ↔ a.map Char.toLower = b.map Char.toLower) := by
  have h : lowerChar = Char.toLower := by
    funext c
    rw [lowerChar, Char.toLower]
    simp only [Char.le_def]
    split_ifs with h1
    · apply Char.ext
      apply UInt32.toNat.inj
      have h2 : c.toNat ≤ 90 := h1.2
      have h3 : (c.val + ('a'.val - 'A'.val)).toNat = c.toNat + 32 := by
        rw [UInt32.toNat_add]
        show (c.toNat + 32) % _ = _
        omega
      have h4 : (Char.ofNat (c.toNat + 32)).toNat = c.toNat + 32 := by
        rw [Char.ofNat, dif_pos (show (c.toNat + 32).isValidChar from .inl (by omega))]
        rfl
      exact h4.trans h3.symm
    · rfl
  constructor
  · simp [namesEqual]
  · simp [namesEqual, h]

example : namesEqual false "Zoë".toList "zoë".toList = true := by decide +kernel

/-! ## Free aliases -/

/-- The number that digits stand for. -/
def undigits (l : Name) : Nat := l.foldl (fun a c => a * 10 + (c.toNat - 48)) 0

theorem toNat_digit {n : Nat} (h : n < 10) : (Char.ofNat (48 + n)).toNat - 48 = n := by
  have : n = 0 ∨ n = 1 ∨ n = 2 ∨ n = 3 ∨ n = 4 ∨ n = 5 ∨ n = 6 ∨ n = 7 ∨ n = 8 ∨ n = 9 := by omega
  rcases this with h | h | h | h | h | h | h | h | h | h <;> subst h <;> rfl

theorem lower_digit {n : Nat} (h : n < 10) : lowerChar (Char.ofNat (48 + n)) = Char.ofNat (48 + n) := by
  have : n = 0 ∨ n = 1 ∨ n = 2 ∨ n = 3 ∨ n = 4 ∨ n = 5 ∨ n = 6 ∨ n = 7 ∨ n = 8 ∨ n = 9 := by omega
  rcases this with h | h | h | h | h | h | h | h | h | h <;> subst h <;> decide

theorem undigits_digitsGo : ∀ (fuel n : Nat), n < fuel → undigits (digitsGo fuel n) = n
  | 0, _, h => absurd h (Nat.not_lt_zero _)
  | fuel + 1, n, h => by
    rw [digitsGo]
    split
    · rename_i hn
      simp only [undigits, List.foldl_cons, List.foldl_nil, Nat.zero_mul, Nat.zero_add]
      exact toNat_digit hn
    · have ih := undigits_digitsGo fuel (n / 10) (by omega)
      rw [undigits] at ih ⊢
      rw [List.foldl_append, ih]
      simp only [List.foldl_cons, List.foldl_nil]
      rw [toNat_digit (by omega)]
      omega

theorem digits_inj {a b : Nat} (h : digits a = digits b) : a = b := by
  have ha := undigits_digitsGo (a + 1) a (by omega)
  have hb := undigits_digitsGo (b + 1) b (by omega)
  rw [← digits] at ha hb
  rw [← ha, ← hb, h]

theorem lower_digits : ∀ (fuel n : Nat), (digitsGo fuel n).map lowerChar = digitsGo fuel n
  | 0, _ => rfl
  | fuel + 1, n => by
    rw [digitsGo]
    split
    · rename_i hn
      rw [List.map_cons, lower_digit hn]
      rfl
    · rw [List.map_append, lower_digits fuel, List.map_cons, lower_digit (by omega)]
      rfl

theorem nameKey_alias (cs : Bool) (base : Name) (k : Nat) :
    nameKey cs (aliasAt base (k + 1)) = nameKey cs base ++ '_' :: digits (k + 1) := by
  cases cs with
  | true => rfl
  | false =>
    have h1 : lowerChar '_' = '_' := by decide
    simp only [nameKey, aliasAt, Bool.false_eq_true, if_false, List.map_append, List.map_cons, h1, digits, lower_digits]

theorem aliasAt_inj {cs : Bool} {base : Name} {a b : Nat}
    (h : nameKey cs (aliasAt base a) = nameKey cs (aliasAt base b)) : a = b := by
  cases a with
  | zero =>
    cases b with
    | zero => rfl
    | succ b =>
      rw [nameKey_alias, aliasAt] at h
      have := congrArg List.length h
      simp at this
  | succ a =>
    cases b with
    | zero =>
      rw [nameKey_alias, aliasAt] at h
      have := congrArg List.length h
      simp at this
    | succ b =>
      rw [nameKey_alias, nameKey_alias] at h
      have := List.append_cancel_left h
      exact digits_inj (List.cons.inj this).2

theorem freeAliasGo_spec (cs : Bool) (base : Name) (occ : List Name) : ∀ (fuel k : Nat),
    nameKey cs (freeAliasGo cs base occ fuel k) ∉ occ ∨
      ∀ j, k ≤ j → j ≤ k + fuel → nameKey cs (aliasAt base j) ∈ occ
  | 0, k => by
    rw [freeAliasGo]
    by_cases h : nameKey cs (aliasAt base k) ∈ occ
    · right
      intro j h1 h2
      have : j = k := by omega
      rw [this]
      exact h
    · exact .inl h
  | fuel + 1, k => by
    rw [freeAliasGo]
    split
    · rename_i hc
      rcases freeAliasGo_spec cs base occ fuel (k + 1) with h | h
      · exact .inl h
      · right
        intro j h1 h2
        by_cases hj : j = k
        · rw [hj]
          simpa using hc
        · exact h j (by omega) (by omega)
    · rename_i hc
      left
      simpa using hc

/-- The alias found is free. -/
theorem freeAlias_free (cs : Bool) (name : Name) (occ : List Name) : nameKey cs (freeAlias cs name occ) ∉ occ := by
  rw [freeAlias]
  generalize "__sail_src_".toList ++ name = base
  rcases freeAliasGo_spec cs base occ occ.length 0 with h | h
  · exact h
  · exfalso
    have hnd : ((List.range (occ.length + 1)).map (fun j => nameKey cs (aliasAt base j))).Nodup :=
      List.Nodup.map_on (fun a _ b _ hab => aliasAt_inj hab) List.nodup_range
    have hsub : ((List.range (occ.length + 1)).map (fun j => nameKey cs (aliasAt base j))) ⊆ occ := by
      intro x hx
      obtain ⟨j, hj, rfl⟩ := List.mem_map.1 hx
      rw [List.mem_range] at hj
      exact h j (by omega) (by omega)
    have := (List.subperm_of_subset hnd hsub).length_le
    simp at this
    omega

theorem aliasesGo_spec (cs : Bool) : ∀ (names occ : List Name),
    (aliasesGo cs occ names).length = names.length ∧
      ((aliasesGo cs occ names).map (nameKey cs)).Nodup ∧
      ∀ a ∈ aliasesGo cs occ names, nameKey cs a ∉ occ
  | [], occ => by simp [aliasesGo]
  | n :: names, occ => by
    obtain ⟨h1, h2, h3⟩ := aliasesGo_spec cs names (nameKey cs (freeAlias cs n occ) :: occ)
    rw [aliasesGo]
    refine ⟨by simp [h1], ?_, ?_⟩
    · rw [List.map_cons, List.nodup_cons]
      refine ⟨?_, h2⟩
      intro hm
      obtain ⟨a, ha, hk⟩ := List.mem_map.1 hm
      exact h3 a ha (by rw [hk]; simp)
    · intro a ha
      rcases List.mem_cons.1 ha with rfl | ha
      · exact freeAlias_free cs n occ
      · intro hm
        exact h3 a ha (List.mem_cons.2 (.inr hm))

/-- **C81.** Every source column gets a name of its own: the aliases differ from each other and from all columns of the
target, also without regard to case if case does not matter. -/
theorem C81_aliases_are_free (c : Columns) :
    c.aliases.length = c.sourceNames.length ∧
      c.aliases.Pairwise (fun a b => namesEqual c.caseSensitive a b = false) ∧
      ∀ a ∈ c.aliases, ∀ t ∈ c.targetFields, namesEqual c.caseSensitive a t = false := by
  obtain ⟨h1, h2, h3⟩ := aliasesGo_spec c.caseSensitive c.sourceNames (c.targetFields.map (nameKey c.caseSensitive))
  have hk : ∀ a b, nameKey c.caseSensitive a ≠ nameKey c.caseSensitive b →
      namesEqual c.caseSensitive a b = false := by
    intro a b h
    rw [namesEqual]
    rw [nameKey, nameKey] at h
    cases hc : c.caseSensitive with
    | true => rw [hc] at h; simpa using h
    | false => rw [hc] at h; simpa using h
  refine ⟨h1, ?_, ?_⟩
  · rw [List.Nodup, List.pairwise_map] at h2
    exact h2.imp (fun h => hk _ _ h)
  · intro a ha t ht
    apply hk
    intro heq
    exact h3 a ha (heq ▸ List.mem_map.2 ⟨t, ht, rfl⟩)

/-! ## The maps -/

theorem lookupLast_eq {ins : List (Name × Name)} {n v : Name} (hm : (n, v) ∈ ins)
    (hu : ∀ w, (n, w) ∈ ins → w = v) : lookupLast ins n = some v := by
  rw [lookupLast]
  cases hf : ins.reverse.find? (fun p => p.1 == n) with
  | none =>
    have := List.find?_eq_none.1 hf (n, v) (by simpa using hm)
    simp at this
  | some p =>
    have hp := List.mem_of_find?_eq_some hf
    have hn := List.find?_some hf
    simp only [beq_iff_eq] at hn
    rw [List.mem_reverse] at hp
    obtain ⟨a, b⟩ := p
    cases hn
    rw [hu b hp]
    rfl

theorem lookupLast_none {ins : List (Name × Name)} {n : Name} (h : ∀ p ∈ ins, p.1 ≠ n) : lookupLast ins n = none := by
  rw [lookupLast]
  have : ins.reverse.find? (fun p => p.1 == n) = none := by
    rw [List.find?_eq_none]
    intro p hp
    rw [List.mem_reverse] at hp
    simpa using h p hp
  rw [this]
  rfl

theorem nodup_inj {β : Type} {l : List β} (h : l.Nodup) {i j : Nat} {x : β} (hi : l[i]? = some x)
    (hj : l[j]? = some x) : i = j := by
  obtain ⟨hi, rfl⟩ := List.getElem?_eq_some_iff.1 hi
  obtain ⟨hj, h2⟩ := List.getElem?_eq_some_iff.1 hj
  exact ((List.Nodup.getElem_inj_iff h).1 h2).symm

theorem mem_sourceMap {c : Columns} {n v : Name} (h : (n, v) ∈ c.sourceMap) : ∃ i : Nat, c.aliases[i]? = some v ∧
    (c.sourceNames[i]? = some n ∨ c.sourceIds[i]? = some n) := by
  rw [Columns.sourceMap] at h
  obtain ⟨⟨⟨id, nm⟩, al⟩, hp, hv⟩ := List.mem_flatMap.1 h
  obtain ⟨i, hi⟩ := List.mem_iff_getElem?.1 hp
  rw [List.getElem?_zip_eq_some, List.getElem?_zip_eq_some] at hi
  simp only [List.mem_cons, List.not_mem_nil, or_false, Prod.mk.injEq] at hv
  rcases hv with ⟨rfl, rfl⟩ | ⟨rfl, rfl⟩
  · exact ⟨i, hi.2, .inl hi.1.2⟩
  · exact ⟨i, hi.2, .inr hi.1.1⟩

theorem sourceMap_mem {c : Columns} {i : Nat} {id nm al : Name} (h1 : c.sourceIds[i]? = some id)
    (h2 : c.sourceNames[i]? = some nm) (h3 : c.aliases[i]? = some al) :
    (nm, al) ∈ c.sourceMap ∧ (id, al) ∈ c.sourceMap := by
  have : ((id, nm), al) ∈ (c.sourceIds.zip c.sourceNames).zip c.aliases := by
    rw [List.mem_iff_getElem?]
    refine ⟨i, ?_⟩
    rw [List.getElem?_zip_eq_some, List.getElem?_zip_eq_some]
    exact ⟨⟨h1, h2⟩, h3⟩
  rw [Columns.sourceMap]
  constructor
  · exact List.mem_flatMap.2 ⟨_, this, by simp⟩
  · exact List.mem_flatMap.2 ⟨_, this, by simp⟩

theorem alias_at {c : Columns} {i : Nat} {nm : Name} (h : c.sourceNames[i]? = some nm) : ∃ al, c.aliases[i]? = some al := by
  have hl := (C81_aliases_are_free c).1
  have hi : i < c.aliases.length := by
    rw [hl]
    exact (List.getElem?_eq_some_iff.1 h).1
  exact ⟨_, List.getElem?_eq_getElem hi⟩

/-- A reference to a source column, by name or by identifier, gets its alias. -/
theorem sourceMap_lookup {c : Columns} (hok : c.Ok) {i : Nat} {nm al : Name}
    (h2 : c.sourceNames[i]? = some nm) (h3 : c.aliases[i]? = some al) :
    lookupLast c.sourceMap nm = some al ∧ ∀ id, c.sourceIds[i]? = some id → lookupLast c.sourceMap id = some al := by
  have hi : i < c.sourceIds.length := by
    rw [hok.sourceLength]
    exact (List.getElem?_eq_some_iff.1 h2).1
  have hidi : c.sourceIds[i]? = some c.sourceIds[i] := List.getElem?_eq_getElem hi
  have hnames : ∀ n ∈ c.sourceNames, n ∉ c.sourceIds := fun n hn hm =>
    hok.named n (List.mem_append.2 (.inr hn)) (List.mem_append.2 (.inr hm))
  have hids : c.sourceIds.Nodup := (List.nodup_append.1 hok.ids).2.1
  constructor
  · refine lookupLast_eq (sourceMap_mem hidi h2 h3).1 ?_
    intro w hw
    obtain ⟨j, hj, hn | hn⟩ := mem_sourceMap hw
    · have : j = i := nodup_inj hok.source hn h2
      rw [this, h3] at hj
      exact (Option.some.inj hj).symm
    · exact absurd (List.mem_of_getElem? hn) (hnames nm (List.mem_of_getElem? h2))
  · intro id hid
    refine lookupLast_eq (sourceMap_mem hid h2 h3).2 ?_
    intro w hw
    obtain ⟨j, hj, hn | hn⟩ := mem_sourceMap hw
    · exact absurd (List.mem_of_getElem? hid) (hnames id (List.mem_of_getElem? hn))
    · have : j = i := nodup_inj hids hn hid
      rw [this, h3] at hj
      exact (Option.some.inj hj).symm

/-- The columns of the projected source are the aliases. -/
theorem sourceFields_eq {c : Columns} (hok : c.Ok) : c.sourceFields = c.aliases := by
  apply List.ext_getElem?
  intro i
  rw [Columns.sourceFields, List.getElem?_map]
  cases h : c.sourceNames[i]? with
  | none =>
    rw [List.getElem?_eq_none_iff] at h
    rw [Option.map_none, eq_comm, List.getElem?_eq_none_iff, (C81_aliases_are_free c).1]
    exact h
  | some nm =>
    obtain ⟨al, hal⟩ := alias_at h
    rw [hal, Option.map_some, (sourceMap_lookup hok h hal).1]
    rfl

theorem namesEqual_false_ne {cs : Bool} {a b : Name} (h : namesEqual cs a b = false) : a ≠ b := by
  rintro rfl
  rw [namesEqual_refl] at h
  exact nomatch h

theorem joined_nodup {c : Columns} (hok : c.Ok) : c.joined.Nodup := by
  obtain ⟨_, h2, h3⟩ := C81_aliases_are_free c
  rw [Columns.joined, sourceFields_eq hok, List.nodup_append]
  refine ⟨List.Nodup.of_map _ hok.target, h2.imp (fun h => namesEqual_false_ne h), ?_⟩
  intro a ha b hb hab
  exact namesEqual_false_ne (h3 b hb a ha) hab.symm

theorem targetMap_lookup {c : Columns} (hok : c.Ok) {i : Nat} {id nm : Name} (h1 : c.targetIds[i]? = some id)
    (h2 : c.targetNames[i]? = some nm) : lookupLast c.targetMap id = some nm := by
  refine lookupLast_eq ?_ ?_
  · rw [Columns.targetMap, List.mem_append]
    left
    rw [List.mem_iff_getElem?]
    exact ⟨i, List.getElem?_zip_eq_some.2 ⟨h1, h2⟩⟩
  · intro w hw
    rw [Columns.targetMap, List.mem_append] at hw
    rcases hw with hw | hw
    · obtain ⟨j, hj⟩ := List.mem_iff_getElem?.1 hw
      rw [List.getElem?_zip_eq_some] at hj
      have : j = i := nodup_inj (List.nodup_append.1 hok.ids).1 hj.1 h1
      rw [this, h2] at hj
      exact (Option.some.inj hj.2).symm
    · obtain ⟨m, hm, heq⟩ := List.mem_map.1 hw
      cases heq
      exact absurd (List.mem_append.2 (.inl (List.mem_of_getElem? h1)))
        (hok.named _ (List.mem_append.2 (.inl (List.mem_append.2 (.inr hm)))))

theorem targetMap_source {c : Columns} (hok : c.Ok) {i : Nat} {id : Name} (h1 : c.sourceIds[i]? = some id) :
    lookupLast c.targetMap id = none := by
  apply lookupLast_none
  intro p hp heq
  have hid := List.mem_of_getElem? h1
  rw [Columns.targetMap, List.mem_append] at hp
  rcases hp with hp | hp
  · have := (List.of_mem_zip hp).1
    rw [heq] at this
    exact (List.nodup_append.1 hok.ids).2.2 id this id hid rfl
  · obtain ⟨m, hm, rfl⟩ := List.mem_map.1 hp
    cases heq
    exact absurd (List.mem_append.2 (.inr hid))
      (hok.named _ (List.mem_append.2 (.inl (List.mem_append.2 (.inr hm)))))

variable {α : Type}

/-- **C81.** A reference to a target column reads that column of the joined row, and a reference to a source column
reads that column; no two columns of the joined row have the same name. Assumes that names differ from internal
identifiers and that the columns of the source have different names. -/
theorem C81_references_read_their_column_partial [DecidableEq α] {c : Columns} (hok : c.Ok) {t m s : Row α}
    (ht : t.length = c.targetNames.length) (hm : m.length = c.metadata.length) (i : Nat) (id : Name) :
    c.joined.Nodup ∧
    (c.targetIds[i]? = some id → colAt c.joined (t ++ m ++ s) (c.rewrite id) = t.at i) ∧
    (c.sourceIds[i]? = some id → colAt c.joined (t ++ m ++ s) (c.rewrite id) = s.at i) := by
  refine ⟨joined_nodup hok, ?_, ?_⟩
  · intro h
    have hi : i < c.targetNames.length := by
      rw [← hok.targetLength]
      exact (List.getElem?_eq_some_iff.1 h).1
    have hn : c.targetNames[i]? = some c.targetNames[i] := List.getElem?_eq_getElem hi
    rw [Columns.rewrite, targetMap_lookup hok h hn]
    have hj : c.joined[i]? = some c.targetNames[i] := by
      rw [Columns.joined, Columns.targetFields, List.append_assoc, List.getElem?_append_left hi, hn]
    rw [colAt_eq (joined_nodup hok) hj]
    simp only [Row.at]
    rw [List.append_assoc, List.getElem?_append_left (by omega)]
  · intro h
    have hi : i < c.sourceNames.length := by
      rw [← hok.sourceLength]
      exact (List.getElem?_eq_some_iff.1 h).1
    have hn : c.sourceNames[i]? = some c.sourceNames[i] := List.getElem?_eq_getElem hi
    obtain ⟨al, hal⟩ := alias_at hn
    rw [Columns.rewrite, targetMap_source hok h]
    simp only [(sourceMap_lookup hok hn hal).2 id h, Option.getD_some]
    have hj : c.joined[c.targetFields.length + i]? = some al := by
      rw [Columns.joined, sourceFields_eq hok, List.getElem?_append_right (by omega), ← hal]
      congr 1
      omega
    rw [colAt_eq (joined_nodup hok) hj]
    simp only [Row.at]
    have hlen : (t ++ m).length = c.targetFields.length := by
      rw [List.length_append, ht, hm, Columns.targetFields, List.length_append]
    rw [List.getElem?_append_right (by omega), hlen]
    congr 2
    omega

/-- Names as lists of characters. -/
def nm (s : String) : Name := s.toList

/-- Two target columns, a path column, two source columns, one of them with the name of a target column. -/
def exampleColumns : Columns :=
  { caseSensitive := false, targetIds := [nm "#0", nm "#1"], targetNames := [nm "id", nm "v"], metadata := [nm "path"],
    sourceIds := [nm "#2", nm "#3"], sourceNames := [nm "ID", nm "w"] }

/-- The hypothesis of the theorems is met. -/
example : exampleColumns.Ok :=
  { targetLength := rfl, sourceLength := rfl, ids := by decide +kernel, named := by decide +kernel,
    target := by decide +kernel, source := by decide +kernel }

example : exampleColumns.joined = [nm "id", nm "v", nm "path", nm "__sail_src_ID", nm "__sail_src_w"] := by
  decide +kernel

/-- A target column that is named like the alias makes the search go on. -/
example : ({ exampleColumns with targetNames := [nm "id", nm "__SAIL_SRC_w"] } : Columns).aliases =
    [nm "__sail_src_ID", nm "__sail_src_w_1"] := by decide +kernel

/-- **C81.** The hypothesis on names is needed: if a source column is called `#2` and the source column before it has
the identifier `#2`, references to the latter read the former. -/
theorem C81_name_like_identifier_reads_other_column :
    ∃ c : Columns, c.sourceIds[0]? = some (nm "#2") ∧ c.sourceNames = [nm "a", nm "#2"] ∧ c.joined.Nodup ∧
      (c.targetIds ++ c.sourceIds).Nodup ∧
      colAt c.joined [some 10, some 20, some 30, some 40] (c.rewrite (nm "#2")) = some 40 ∧
      colAt c.joined [some 10, some 20, some 30, some 40] (c.rewrite (nm "#3")) = some 40 :=
  ⟨{ caseSensitive := false, targetIds := [nm "#0"], targetNames := [nm "id"], metadata := [nm "path"],
     sourceIds := [nm "#2", nm "#3"], sourceNames := [nm "a", nm "#2"] }, by decide +kernel⟩

/-- **C81.** Two source columns of the same name get the same alias, so the plan cannot be built, even if the statement
does not mention them. -/
theorem C81_equal_source_names_clash :
    ∃ c : Columns, (c.targetIds ++ c.sourceIds).Nodup ∧ c.aliases.Nodup ∧ ¬ c.sourceFields.Nodup :=
  ⟨{ caseSensitive := false, targetIds := [nm "#0"], targetNames := [nm "id"], metadata := [nm "path"],
     sourceIds := [nm "#1", nm "#2"], sourceNames := [nm "a", nm "a"] }, by decide +kernel⟩

/-- **C81.** An unqualified name that occurs in only one table is resolved there. -/
theorem C81_unqualified_name {T S : List Name} {cs : Bool} {n : Name} :
    (T.any (fun m => namesEqual cs m n) = true → S.any (fun m => namesEqual cs m n) = false →
      sideOf T S cs n = some true) ∧
    (T.any (fun m => namesEqual cs m n) = false → S.any (fun m => namesEqual cs m n) = true →
      sideOf T S cs n = some false) ∧
    (sideOf T S cs n = none ↔ T.any (fun m => namesEqual cs m n) = false ∧
      S.any (fun m => namesEqual cs m n) = false) := by
  rw [sideOf]
  cases T.any (fun m => namesEqual cs m n) <;> cases S.any (fun m => namesEqual cs m n) <;> simp

/-- **C81.** An unqualified name that occurs in both tables is not refused as ambiguous but means the column of the
target: `ON id = id` compares the target column with itself. -/
theorem C81_ambiguous_name_means_target {T S : List Name} {cs : Bool} {n : Name}
    (ht : T.any (fun m => namesEqual cs m n) = true) (hs : S.any (fun m => namesEqual cs m n) = true) :
    sideOf T S cs n = some true := by
  rw [sideOf, ht, hs]

example : sideOf [nm "id", nm "v"] [nm "ID", nm "w"] false (nm "Id") = some true := by decide +kernel
example : sideOf [nm "id", nm "v"] [nm "ID", nm "w"] false (nm "W") = some false := by decide +kernel

end Verif.Merge
