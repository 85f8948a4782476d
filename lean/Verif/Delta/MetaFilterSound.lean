import Verif.Delta.MetaFilterLemmas

namespace Verif.Delta.MetaFilter

open Spec

theorem true_or {env : String → Val} {a b : Expr} :
    True_ env (.or a b) ↔ True_ env a ∨ True_ env b := by
  simp only [True_, eval, toB_ofB]; exact or3_true

theorem true_and {env : String → Val} {a b : Expr} :
    True_ env (.and a b) ↔ True_ env a ∧ True_ env b := by
  simp only [True_, eval, toB_ofB]; exact and3_true

theorem true_cmp {env : String → Val} {op : Op} {a b : Expr} :
    True_ env (.cmp op a b) ↔ cmp3 op (eval env a) (eval env b) = some true := by
  simp only [True_, eval, toB_ofB]

theorem true_isNull {env : String → Val} {a : Expr} :
    True_ env (.isNull a) ↔ (eval env a).isNull = true := by
  simp only [True_, eval, Val.toB, Option.some.injEq]

theorem true_litTrue (env : String → Val) : True_ env litTrue := rfl

theorem true_foldl_or {env : String → Val} (es : List Expr) (e : Expr) :
    True_ env (es.foldl .or e) ↔ True_ env e ∨ ∃ x ∈ es, True_ env x := by
  induction es generalizing e with
  | nil => simp
  | cons a as ih => rw [List.foldl_cons, ih, true_or]; simp [or_assoc]

theorem true_foldl_and {env : String → Val} (es : List Expr) (e : Expr) :
    True_ env (es.foldl .and e) ↔ True_ env e ∧ ∀ x ∈ es, True_ env x := by
  induction es generalizing e with
  | nil => simp
  | cons a as ih => rw [List.foldl_cons, ih, true_and]; simp [and_assoc]

/-- A disjunction is true if a part is; an empty one counts as true. -/
theorem true_disj {env : String → Val} (es : List Expr) :
    True_ env ((disj es).getD litTrue) ↔ es = [] ∨ ∃ x ∈ es, True_ env x := by
  cases es with
  | nil => simp [disj, true_litTrue]
  | cons e es => simp [disj, true_foldl_or]

theorem true_conj {env : String → Val} (es : List Expr) :
    True_ env ((conj es).getD litTrue) ↔ ∀ x ∈ es, True_ env x := by
  cases es with
  | nil => simp [conj, true_litTrue]
  | cons e es => simp [conj, true_foldl_and]

theorem true_anyNull {env : String → Val} (a b : Expr) :
    True_ env (anyNull [a, b]) ↔ (eval env a).isNull = true ∨ (eval env b).isNull = true := by
  unfold anyNull
  rw [true_disj]
  simp [true_isNull]

/-- The cast of a template of a partition column is to the type of the column. -/
def Template.CastOk (t : Table) (tm : Template) : Prop :=
  ∀ ty, tm.castTy = some ty → ∀ ty', t.parts.lookup tm.root = some ty' →
    tm.path = [tm.root] → ty = ty'

theorem castOk_template {t : Table} {e : Expr} {tm : Template} (h : template e = some tm)
    (hc : Spec.CastOk t e) : tm.CastOk t := by
  intro ty hty ty' hl hp
  have he := template_single h hp
  unfold Template.apply at he
  rw [hty] at he
  subst he
  exact hc ty' hl

/-- The text of a partition value compares as the value does. -/
theorem part_cmp {t : Table} {f : File} {r : Row} {tm : Template} {ty : Ty}
    (hl : t.parts.lookup tm.root = some ty) (hp : tm.path = [tm.root]) (hc : tm.CastOk t)
    {v : Val} {o : Ordering}
    (h : ord (tm.castV (at_ (envOf (seen t f r)) tm.path)) v = some o) :
    ord (tm.castV (metaEnv t f tm.root)) v = some o := by
  rw [hp] at h
  simp only [at_, List.foldl_nil] at h
  rw [env_part hl] at h
  rw [meta_part hl]
  unfold Template.castV at h ⊢
  cases hty : tm.castTy with
  | none => rw [hty] at h; exact raw_cmp h
  | some ty2 =>
    rw [hty] at h
    have := hc ty2 hty ty hl hp
    subst this
    exact raw_cast h

section

variable {t : Table} {f : File} {r : Row} {tm : Template}

/-- The lower bound that the metadata row has for a path is missing or below the value. -/
theorem meta_low (hs : "stats_parsed" ∉ t.parts.map Prod.fst) (D : Describes t f)
    (hr : r ∈ f.stored) (hn : Stored t tm.path) (hcast : tm.castTy = none)
    (hv : (at_ (envOf (seen t f r)) tm.path).isNull = false) :
    (eval (metaEnv t f) (tm.apply (statsBound t tm.path true))).isNull = true ∨
    cmp3 .le (eval (metaEnv t f) (tm.apply (statsBound t tm.path true)))
      (at_ (envOf (seen t f r)) tm.path) = some true := by
  rw [Template.eval_apply]
  simp only [Template.castV, hcast, statsBound, if_true]
  rw [eval_statsNested hs]
  cases hst : f.stats with
  | none => left; simp [Val.field, inside_null, Val.isNull]
  | some s => exact D.low s hst _ hn r hr hv

theorem meta_high (hs : "stats_parsed" ∉ t.parts.map Prod.fst) (D : Describes t f)
    (hr : r ∈ f.stored) (hn : Stored t tm.path) (hcast : tm.castTy = none)
    (hv : (at_ (envOf (seen t f r)) tm.path).isNull = false) :
    (eval (metaEnv t f) (tm.apply (statsBound t tm.path false))).isNull = true ∨
    cmp3 .ge (eval (metaEnv t f) (tm.apply (statsBound t tm.path false)))
      (at_ (envOf (seen t f r)) tm.path) = some true := by
  rw [Template.eval_apply]
  simp only [Template.castV, hcast, statsBound, Bool.false_eq_true, if_false]
  rw [eval_statsNested hs]
  cases hst : f.stats with
  | none => left; simp [Val.field, inside_null, Val.isNull]
  | some s => exact D.high s hst _ hn r hr hv

theorem template_sound (hs : "stats_parsed" ∉ t.parts.map Prod.fst) (D : Describes t f)
    (hr : r ∈ f.stored) (hne : tm.path ≠ []) (hc : tm.CastOk t) (op : Op) (w : Expr)
    (hw : w.cols = [])
    (h : cmp3 op (tm.castV (at_ (envOf (seen t f r)) tm.path)) (eval (envOf (seen t f r)) w)
      = some true) :
    True_ (metaEnv t f) (rewriteTemplate t tm op w) := by
  rw [eval_free w hw _ (metaEnv t f)] at h
  unfold rewriteTemplate
  split
  · next hp =>
    obtain ⟨ty, hpath, hl⟩ := isPartition_true hp
    rw [true_cmp, Template.eval_apply]
    obtain ⟨o, ho, ho'⟩ := cmp3_true.mp h
    exact cmp3_true.mpr ⟨o, part_cmp hl hpath hc ho, ho'⟩
  · next hp =>
    split
    · exact true_litTrue _
    · next hcast =>
      have hcast : tm.castTy = none := by
        cases h' : tm.castTy with
        | none => rfl
        | some _ => simp [h'] at hcast
      have hst := isPartition_false (by simpa using hp) hne
      have hv : (at_ (envOf (seen t f r)) tm.path).isNull = false := by
        have := cmp3_nonnull h
        simpa [Template.castV, hcast] using this
      have hlow := meta_low hs D hr hst hcast hv
      have hhigh := meta_high hs D hr hst hcast hv
      have h' : cmp3 op (at_ (envOf (seen t f r)) tm.path) (eval (metaEnv t f) w) = some true := by
        simpa [Template.castV, hcast] using h
      dsimp only
      cases op with
      | eq =>
        rw [true_or, true_anyNull, true_and, true_cmp, true_cmp]
        rcases hlow with hl | hl
        · exact .inl (.inl hl)
        · rcases hhigh with hg | hg
          · exact .inl (.inr hg)
          · exact .inr ⟨low_le (.inr rfl) hl h', high_ge (.inr rfl) hg h'⟩
      | ne =>
        rw [true_or, true_anyNull, true_disj]
        rcases hlow with hl | hl
        · exact .inl (.inl hl)
        · rcases hhigh with hg | hg
          · exact .inl (.inr hg)
          · right; right
            rcases ne_split h' with h'' | h''
            · exact ⟨_, List.mem_cons_self, true_cmp.mpr (low_lt hl h'')⟩
            · exact ⟨_, List.mem_cons_of_mem _ List.mem_cons_self,
                true_cmp.mpr (high_gt hg h'')⟩
      | lt =>
        rw [true_or, true_isNull, true_cmp]
        exact hlow.imp id (fun hl => low_lt hl h')
      | le =>
        rw [true_or, true_isNull, true_cmp]
        exact hlow.imp id (fun hl => low_le (.inl rfl) hl h')
      | gt =>
        rw [true_or, true_isNull, true_cmp]
        exact hhigh.imp id (fun hg => high_gt hg h')
      | ge =>
        rw [true_or, true_isNull, true_cmp]
        exact hhigh.imp id (fun hg => high_ge (.inl rfl) hg h')

end

/-- A comparison with the sides swapped. -/
theorem cmp3_reverse {op : Op} {v w : Val} (h : cmp3 op v w = some true) (hv : ∀ s, v ≠ .raw s) :
    cmp3 op.reverse w v = some true := by
  obtain ⟨o, ho, ho'⟩ := cmp3_true.mp h
  exact cmp3_true.mpr ⟨o.swap, ord_swap ho hv, by rw [reverse_holds]; exact ho'⟩

theorem in3_true {x : Val} {vs : List Val} :
    in3 x vs = some true ↔ ∃ v ∈ vs, cmp3 .eq x v = some true := by
  induction vs with
  | nil => simp [in3]
  | cons v vs ih => simp [in3, or3_true, ih]

theorem in3_false {x : Val} {vs : List Val} :
    in3 x vs = some false ↔ ∀ v ∈ vs, cmp3 .eq x v = some false := by
  induction vs with
  | nil => simp [in3]
  | cons v vs ih => simp [in3, or3_false, ih]

theorem eq_false_ne {x v : Val} (h : cmp3 .eq x v = some false) : cmp3 .ne x v = some true := by
  unfold cmp3 at h ⊢
  cases ho : ord x v with
  | none => rw [ho] at h; cases h
  | some o => rw [ho] at h; cases o <;> simp_all [Op.holds]

theorem ge_false_lt {x v : Val} (h : cmp3 .ge x v = some false) : cmp3 .lt x v = some true := by
  unfold cmp3 at h ⊢
  cases ho : ord x v with
  | none => rw [ho] at h; cases h
  | some o => rw [ho] at h; cases o <;> simp_all [Op.holds]

theorem le_false_gt {x v : Val} (h : cmp3 .le x v = some false) : cmp3 .gt x v = some true := by
  unfold cmp3 at h ⊢
  cases ho : ord x v with
  | none => rw [ho] at h; cases h
  | some o => rw [ho] at h; cases o <;> simp_all [Op.holds]

/-- A comparison with any result has an order behind it. -/
theorem cmp3_some {op : Op} {x v : Val} {b : Bool} (h : cmp3 op x v = some b) :
    ∃ o, ord x v = some o ∧ op.holds o = b := by
  unfold cmp3 at h
  cases ho : ord x v with
  | none => rw [ho] at h; cases h
  | some o => rw [ho] at h; exact ⟨o, rfl, by simpa using h⟩

theorem cmp3_of_ord {op : Op} {x v : Val} {o : Ordering} (h : ord x v = some o) :
    cmp3 op x v = some (op.holds o) := by
  unfold cmp3; rw [h]; rfl

section

variable {t : Table} {f : File} {r : Row}

/-- Any comparison of a partition value that has a result has the same on its text. -/
theorem part_cmp3 {tm : Template} {ty : Ty}
    (hl : t.parts.lookup tm.root = some ty) (hp : tm.path = [tm.root]) (hc : tm.CastOk t)
    {op : Op} {v : Val} {b : Bool}
    (h : cmp3 op (tm.castV (at_ (envOf (seen t f r)) tm.path)) v = some b) :
    cmp3 op (tm.castV (metaEnv t f tm.root)) v = some b := by
  obtain ⟨o, ho, ho'⟩ := cmp3_some h
  rw [cmp3_of_ord (part_cmp hl hp hc ho), ho']

theorem comparison_sound (hs : "stats_parsed" ∉ t.parts.map Prod.fst) (D : Describes t f)
    (hr : r ∈ f.stored) {op : Op} {l rt : Expr} (hc : Spec.CastOk t l ∧ Spec.CastOk t rt)
    (hraw : ∀ s, eval (envOf (seen t f r)) l ≠ .raw s)
    (h : cmp3 op (eval (envOf (seen t f r)) l) (eval (envOf (seen t f r)) rt) = some true) :
    True_ (metaEnv t f) ((rewriteComparison t l op rt).getD litTrue) := by
  unfold rewriteComparison
  split
  · next hf =>
    simp only [Bool.and_eq_true] at hf
    simp only [Option.getD_some]
    rw [true_cmp, eval_free l (free_cols hf.1) _ (envOf (seen t f r)),
      eval_free rt (free_cols hf.2) _ (envOf (seen t f r))]
    exact h
  · split
    · next tm htm =>
      split
      · exact true_litTrue _
      · next hf =>
        obtain ⟨hne, hev⟩ := template_eval htm
        simp only [Option.getD_some]
        rw [hev] at h
        exact template_sound hs D hr hne (castOk_template htm hc.1) op rt
          (free_cols (by simpa using hf)) h
    · split
      · next tm htm =>
        split
        · exact true_litTrue _
        · next hf =>
          obtain ⟨hne, hev⟩ := template_eval htm
          simp only [Option.getD_some]
          have h' := cmp3_reverse h hraw
          rw [hev] at h'
          exact template_sound hs D hr hne (castOk_template htm hc.2) op.reverse l
            (free_cols (by simpa using hf)) h'
      · exact true_litTrue _

theorem between_sound (hs : "stats_parsed" ∉ t.parts.map Prod.fst) (D : Describes t f)
    (hr : r ∈ f.stored) {e lo hi : Expr} {neg : Bool} (hc : Spec.CastOk t e)
    (h : True_ (envOf (seen t f r)) (.between e neg lo hi)) :
    True_ (metaEnv t f) ((rewriteBetween t e neg lo hi).getD litTrue) := by
  unfold rewriteBetween
  split
  · exact true_litTrue _
  · next hf =>
    simp only [Bool.or_eq_true, Bool.not_eq_true', not_or, Bool.not_eq_false] at hf
    have hlo := fun env' => eval_free lo (free_cols hf.1) (envOf (seen t f r)) env'
    have hhi := fun env' => eval_free hi (free_cols hf.2) (envOf (seen t f r)) env'
    simp only [True_, eval, toB_ofB] at h
    rw [hlo (metaEnv t f), hhi (metaEnv t f)] at h
    split
    · exact true_litTrue _
    · next tm htm =>
      obtain ⟨hne, hev⟩ := template_eval htm
      rw [hev] at h
      split
      · next hp =>
        obtain ⟨ty, hpath, hl⟩ := isPartition_true hp
        have hcast := castOk_template htm hc
        simp only [Option.getD_some, True_, eval, toB_ofB]
        have he : eval (metaEnv t f) e = tm.castV (metaEnv t f tm.root) := by
          rw [hev, hpath]; rfl
        rw [he]
        unfold neg3 at h ⊢
        cases neg
        · simp only [Bool.false_eq_true, if_false] at h ⊢
          rw [and3_true] at h ⊢
          exact ⟨part_cmp3 hl hpath hcast h.1, part_cmp3 hl hpath hcast h.2⟩
        · simp only [if_true] at h ⊢
          rw [not3_true, and3_false] at h ⊢
          exact h.imp (part_cmp3 hl hpath hcast) (part_cmp3 hl hpath hcast)
      · next hp =>
        split
        · exact true_litTrue _
        · next hcast =>
          have hcast : tm.castTy = none := by
            cases h' : tm.castTy with
            | none => rfl
            | some _ => simp [h'] at hcast
          have hst := isPartition_false (by simpa using hp) hne
          simp only [Template.castV, hcast] at h
          dsimp only
          simp only [Option.getD_some]
          rw [true_or, true_anyNull]
          cases neg
          · simp only [neg3, Bool.false_eq_true, if_false] at h ⊢
            rw [and3_true] at h
            have hv := cmp3_nonnull h.1
            rcases meta_low hs D hr hst hcast hv with hl | hl
            · exact .inl (.inl hl)
            · rcases meta_high hs D hr hst hcast hv with hg | hg
              · exact .inl (.inr hg)
              · right
                rw [true_conj]
                intro x hx
                simp only [List.mem_cons, List.not_mem_nil, or_false] at hx
                rcases hx with rfl | rfl
                · exact true_cmp.mpr (high_ge (.inl rfl) hg h.1)
                · exact true_cmp.mpr (low_le (.inl rfl) hl h.2)
          · simp only [neg3, if_true] at h ⊢
            rw [not3_true, and3_false] at h
            have hv : (at_ (envOf (seen t f r)) tm.path).isNull = false := by
              rcases h with h | h
              · exact cmp3_nonnull (ge_false_lt h)
              · exact cmp3_nonnull (le_false_gt h)
            rcases meta_low hs D hr hst hcast hv with hl | hl
            · exact .inl (.inl hl)
            · rcases meta_high hs D hr hst hcast hv with hg | hg
              · exact .inl (.inr hg)
              · right
                rw [true_disj]
                right
                rcases h with h | h
                · exact ⟨_, List.mem_cons_self, true_cmp.mpr (low_lt hl (ge_false_lt h))⟩
                · exact ⟨_, List.mem_cons_of_mem _ List.mem_cons_self,
                    true_cmp.mpr (high_gt hg (le_false_gt h))⟩

theorem inList_sound (hs : "stats_parsed" ∉ t.parts.map Prod.fst) (D : Describes t f)
    (hr : r ∈ f.stored) {e : Expr} {vs : List Val} {neg : Bool} (hc : Spec.CastOk t e)
    (h : True_ (envOf (seen t f r)) (.inList e vs neg)) :
    True_ (metaEnv t f) ((rewriteInList t e vs neg).getD litTrue) := by
  unfold rewriteInList
  simp only [True_, eval, toB_ofB] at h
  split
  · exact true_litTrue _
  · next tm htm =>
    obtain ⟨hne, hev⟩ := template_eval htm
    have hcast := castOk_template htm hc
    rw [hev] at h
    split
    · next hp =>
      obtain ⟨ty, hpath, hl⟩ := isPartition_true hp
      simp only [Option.getD_some, True_, eval, toB_ofB]
      have he : eval (metaEnv t f) e = tm.castV (metaEnv t f tm.root) := by
        rw [hev, hpath]; rfl
      rw [he]
      cases neg
      · simp only [neg3, Bool.false_eq_true, if_false] at h ⊢
        rw [in3_true] at h ⊢
        obtain ⟨v, hv, hv'⟩ := h
        exact ⟨v, hv, part_cmp3 hl hpath hcast hv'⟩
      · simp only [neg3, if_true] at h ⊢
        rw [not3_true, in3_false] at h ⊢
        exact fun v hv => part_cmp3 hl hpath hcast (h v hv)
    · next hp =>
      split
      · exact true_litTrue _
      · dsimp only
        cases neg
        · simp only [neg3, Bool.false_eq_true, if_false] at h ⊢
          rw [in3_true] at h
          obtain ⟨v, hv, hv'⟩ := h
          simp only [Option.getD_some]
          rw [true_disj]
          exact .inr ⟨_, List.mem_map.mpr ⟨v, hv, rfl⟩,
            template_sound hs D hr hne hcast .eq (.lit v) rfl hv'⟩
        · simp only [neg3, if_true] at h ⊢
          rw [not3_true, in3_false] at h
          simp only [Option.getD_some]
          rw [true_conj]
          intro x hx
          obtain ⟨v, hv, rfl⟩ := List.mem_map.mp hx
          exact template_sound hs D hr hne hcast .ne (.lit v) rfl (eq_false_ne (h v hv))

/-- Reading a partition column that can be read, or its text, is null for the same files. -/
theorem part_isNull {tm : Template} {ty : Ty} (hR : Readable t f)
    (hl : t.parts.lookup tm.root = some ty) (hp : tm.path = [tm.root]) (hc : tm.CastOk t) :
    (tm.castV (metaEnv t f tm.root)).isNull =
      (tm.castV (at_ (envOf (seen t f r)) tm.path)).isNull := by
  rw [hp]
  simp only [at_, List.foldl_nil]
  rw [env_part hl, meta_part hl]
  cases hx : f.text tm.root with
  | none => rfl
  | some s =>
    have hR := hR _ _ hl s hx
    simp only [readPart] at hR ⊢
    split at hR
    · cases hR
    · next hm =>
      rw [if_neg hm]
      unfold Template.castV
      cases hty : tm.castTy with
      | none => simp only [rawVal]; rw [hR]; rfl
      | some ty2 =>
        have := hc ty2 hty ty hl hp
        subst this
        simp only [rawVal]
        cases ty2 with
        | int =>
          simp only [castVal] at hR ⊢
          cases hi : (parseInt s) <;> simp [hi, castVal, Val.isNull] at hR ⊢
        | str => simp [castVal]
        | bool =>
          simp only [castVal] at hR ⊢
          cases hi : parseBool s <;> simp [hi, castVal, Val.isNull] at hR ⊢

theorem countP_pos {α : Type} {p : α → Bool} {l : List α} {x : α} (hx : x ∈ l)
    (hp : p x = true) : 0 < l.countP p := List.countP_pos_iff.mpr ⟨x, hx, hp⟩

theorem countP_lt {α : Type} {p : α → Bool} {l : List α} {x : α} (hx : x ∈ l)
    (hp : p x = false) : l.countP p < l.length := by
  have h1 := List.length_eq_countP_add_countP p (l := l)
  have h2 : 0 < l.countP (fun a => ¬ p a = true) :=
    List.countP_pos_iff.mpr ⟨x, hx, by simp [hp]⟩
  omega

theorem nullCheck_sound (hs : "stats_parsed" ∉ t.parts.map Prod.fst) (D : Describes t f)
    (hR : Readable t f) (hr : r ∈ f.stored) {e : Expr} {nn : Bool} (hc : Spec.CastOk t e)
    (h : (eval (envOf (seen t f r)) e).isNull = !nn) :
    True_ (metaEnv t f) ((rewriteNullCheck t e nn).getD litTrue) := by
  unfold rewriteNullCheck
  split
  · exact true_litTrue _
  · next tm htm =>
    obtain ⟨hne, hev⟩ := template_eval htm
    rw [hev] at h
    split
    · next hp =>
      obtain ⟨ty, hpath, hl⟩ := isPartition_true hp
      have he : eval (metaEnv t f) e = tm.castV (metaEnv t f tm.root) := by
        rw [hev, hpath]; rfl
      rw [← part_isNull hR hl hpath (castOk_template htm hc), ← he] at h
      cases nn
      · simp only [Bool.false_eq_true, if_false, Option.getD_some, True_, eval, Val.toB]
        rw [h]; rfl
      · simp only [if_true, Option.getD_some, True_, eval, Val.toB]
        rw [h]; rfl
    · next hp =>
      split
      · exact true_litTrue _
      · next hcast =>
        have hcast : tm.castTy = none := by
          cases h' : tm.castTy with
          | none => rfl
          | some _ => simp [h'] at hcast
        have hst := isPartition_false (by simpa using hp) hne
        simp only [Template.castV, hcast] at h
        have hnc : eval (metaEnv t f) (tm.apply (statsNested t "nullCount" tm.path)) =
            inside (((f.stats.map Stats.toVal).getD .null).field "nullCount")
              (physicalOf t tm.path) := by
          rw [Template.eval_apply]
          simp only [Template.castV, hcast]
          rw [eval_statsNested hs]
        have hnr : eval (metaEnv t f) (.field (.col "stats_parsed") "numRecords") =
            ((f.stats.map Stats.toVal).getD .null).field "numRecords" := by
          simp only [eval]; rw [meta_stats hs]
        dsimp only
        cases hstat : f.stats with
        | none =>
          have hnull : (eval (metaEnv t f) (tm.apply (statsNested t "nullCount" tm.path))).isNull
              = true := by
            rw [hnc, hstat]; simp [Val.field, inside_null, Val.isNull]
          cases nn
          · simp only [Bool.false_eq_true, if_false, Option.getD_some]
            rw [true_disj]
            exact .inr ⟨_, List.mem_cons_self, true_isNull.mpr hnull⟩
          · simp only [if_true, Option.getD_some]
            rw [true_disj]
            exact .inr ⟨_, List.mem_cons_self, true_isNull.mpr hnull⟩
        | some s =>
          have hnc : eval (metaEnv t f) (tm.apply (statsNested t "nullCount" tm.path)) =
              inside s.nullCount (physicalOf t tm.path) := by
            rw [hnc, hstat]; rfl
          have hnr : eval (metaEnv t f) (.field (.col "stats_parsed") "numRecords") =
              s.numRecords := by
            rw [hnr, hstat]; rfl
          have hnulls := D.nulls s hstat _ hst
          cases nn
          · simp only [Bool.false_eq_true, if_false, Option.getD_some, Bool.not_false] at h ⊢
            rw [true_disj]
            right
            rcases hnulls with hn | hn
            · exact ⟨_, List.mem_cons_self, true_isNull.mpr (by rw [hnc]; exact hn)⟩
            · refine ⟨_, List.mem_cons_of_mem _ List.mem_cons_self, true_cmp.mpr ?_⟩
              rw [hnc, hn]
              have hpos := countP_pos (p := fun r => (at_ (envOf (seen t f r)) tm.path).isNull) hr h
              refine cmp3_true.mpr ⟨.gt, ?_, rfl⟩
              simp only [eval, ord, Option.some.injEq]
              rw [Int.compare_eq_gt]
              omega
          · simp only [if_true, Option.getD_some, Bool.not_true] at h ⊢
            rw [true_disj]
            right
            rcases hnulls with hn | hn
            · exact ⟨_, List.mem_cons_self, true_isNull.mpr (by rw [hnc]; exact hn)⟩
            · rcases D.count s hstat with hk | hk
              · exact ⟨_, List.mem_cons_of_mem _ List.mem_cons_self,
                  true_isNull.mpr (by rw [hnr]; exact hk)⟩
              · refine ⟨_, List.mem_cons_of_mem _ (List.mem_cons_of_mem _ List.mem_cons_self),
                  true_cmp.mpr ?_⟩
                rw [hnc, hn, hnr, hk]
                have hlt := countP_lt (p := fun r => (at_ (envOf (seen t f r)) tm.path).isNull)
                  hr h
                refine cmp3_true.mpr ⟨.lt, ?_, rfl⟩
                simp only [ord, Option.some.injEq]
                rw [Int.compare_eq_lt]
                omega

end

namespace Spec

/-- No value compared is a `raw`: such values are in the metadata row only, and a query cannot
name one. -/
def NoRaw (env : String → Val) : Expr → Prop
  | .cmp _ l _ => ∀ s, eval env l ≠ .raw s
  | .and l r => NoRaw env l ∧ NoRaw env r
  | .or l r => NoRaw env l ∧ NoRaw env r
  | .not e => NoRaw env e
  | .alias e => NoRaw env e
  | _ => True

/-- If the predicate has a null check, the partition texts of the file can be read. -/
def NullChecksOk (t : Table) (f : File) : Expr → Prop
  | .isNull _ => Readable t f
  | .isNotNull _ => Readable t f
  | .and l r => NullChecksOk t f l ∧ NullChecksOk t f r
  | .or l r => NullChecksOk t f l ∧ NullChecksOk t f r
  | .not e => NullChecksOk t f e
  | .alias e => NullChecksOk t f e
  | _ => True

end Spec

theorem rewrite_sound {t : Table} {f : File} {r : Row}
    (hs : "stats_parsed" ∉ t.parts.map Prod.fst) (D : Describes t f)
    (hr : r ∈ f.stored) (e : Expr) (hR : NullChecksOk t f e) (hc : CastsOk t e) (hraw : NoRaw (envOf (seen t f r)) e)
    (h : True_ (envOf (seen t f r)) e) : True_ (metaEnv t f) (rewrite t e) := by
  induction e with
  | col n => exact true_litTrue _
  | field e n => exact true_litTrue _
  | lit v => exact h
  | cmp op l rt =>
    simp only [True_, eval, toB_ofB] at h
    exact comparison_sound hs D hr hc hraw h
  | and l rt ihl ihr =>
    rw [true_and] at h
    exact true_and.mpr ⟨ihl hR.1 hc.1 hraw.1 h.1, ihr hR.2 hc.2 hraw.2 h.2⟩
  | or l rt ihl ihr =>
    rw [true_or] at h
    exact true_or.mpr (h.imp (ihl hR.1 hc.1 hraw.1) (ihr hR.2 hc.2 hraw.2))
  | not e ih =>
    simp only [True_, eval, toB_ofB] at h
    rw [not3_true] at h
    cases e with
    | isNull e =>
      simp only [rewrite]
      refine nullCheck_sound hs D hR hr hc ?_
      simpa [eval, Val.toB] using h
    | isNotNull e =>
      simp only [rewrite]
      refine nullCheck_sound hs D hR hr hc ?_
      simpa [eval, Val.toB] using h
    | _ => exact true_litTrue _
  | between e neg lo hi => exact between_sound hs D hr hc h
  | inList e vs neg => exact inList_sound hs D hr hc h
  | isNull e =>
    simp only [rewrite]
    refine nullCheck_sound hs D hR hr hc ?_
    simpa [True_, eval, Val.toB] using h
  | isNotNull e =>
    simp only [rewrite]
    refine nullCheck_sound hs D hR hr hc ?_
    simpa [True_, eval, Val.toB] using h
  | cast e ty => exact true_litTrue _
  | alias e ih => exact ih hR hc hraw h
  | other reads g => exact true_litTrue _

end Verif.Delta.MetaFilter
