import Verif.Sql.PrattProps

/-!
# C92: whatever is read needs no parentheses
-/

namespace Verif.Sql.Pratt

open Spec

/-! ## The parser -/

/-- Whether an operand can begin does not depend on the power. -/
theorem go_none {f m : Nat} (m' : Nat) {ts : List Tok} (h : go f m ts = none) : go f m' ts = none := by
  cases f with
  | zero => cases ts <;> rfl
  | succ f =>
    match ts, h with
    | [], _ => rfl
    | .atom a :: t, h => simp [go] at h
    | .op s :: t, h =>
      simp only [go] at h ⊢
      cases hp : s.pre with
      | none => rfl
      | some p =>
        rw [hp] at h
        simp only at h ⊢
        cases hg : go f (2 * p) t with
        | none => rfl
        | some x => rw [hg] at h; cases h

/-- The operator that follows, with its operand if it has one, has this power. -/
def Next (n : Nat) : List Tok → Prop
  | .op s :: t => (∃ p, s.post = some p ∧ n = 2 * p) ∨ (∃ p, s.inf = some p ∧ n = 2 * p ∧ goN 0 t ≠ none)
  | _ => False

theorem goN_pre_inv {s : Sym} {m : Nat} {t r : List Tok} {e : Frag} (h : goN m (.op s :: t) = some (e, r)) :
    ∃ p e' r', s.pre = some p ∧ goN (2 * p) t = some (e', r') ∧ loopN m (.pre s e') r' = (e, r) := by
  rw [goN, List.length_cons, go] at h
  split at h
  · cases h
  · rename_i p hp
    split at h
    · cases h
    · rename_i e' r' hg
      refine ⟨p, e', r', hp, hg, ?_⟩
      have := goN_pre (m := m) hp hg
      rw [goN, List.length_cons, go, hp] at this
      simp only at this
      rw [hg] at this
      simp only [Option.some.injEq] at this h
      rw [← this, h]

/-- What the parser returns, and what it leaves. -/
def Good (m : Nat) (e : Frag) (r : List Tok) : Prop :=
  WF e ∧ leftOk m e ∧ ∀ n, Next n r → rightOk n e ∧ n < m

theorem go_good : ∀ (k : Nat) (ts : List Tok), ts.length ≤ k →
    (∀ m e r, goN m ts = some (e, r) → Good m e r) ∧
    (∀ m l, WF l → leftOk m l → (∀ n, Next n ts → rightOk n l) → Good m (loopN m l ts).1 (loopN m l ts).2) := by
  intro k
  induction k with
  | zero =>
    intro ts hl
    have : ts = [] := List.length_eq_zero_iff.mp (by omega)
    subst this
    exact ⟨(fun m e r h => by cases h), fun m l h1 h2 _ => ⟨h1, h2, fun n hn => hn.elim⟩⟩
  | succ k ih =>
    intro ts hl
    match ts with
    | [] => exact ⟨(fun m e r h => by cases h), fun m l h1 h2 _ => ⟨h1, h2, fun n hn => hn.elim⟩⟩
    | .atom a :: t =>
      simp only [List.length_cons] at hl
      refine ⟨?_, fun m l h1 h2 _ => ⟨h1, h2, fun n hn => hn.elim⟩⟩
      intro m e r h
      rw [goN_atom, Option.some.injEq] at h
      have := (ih t (by omega)).2 m (.single (.atom a)) ⟨a, rfl⟩ trivial (fun _ _ => trivial)
      rw [h] at this
      exact this
    | .op s :: t =>
      simp only [List.length_cons] at hl
      constructor
      · intro m e r h
        obtain ⟨p, e', r', hp, hg, hlp⟩ := goN_pre_inv h
        have hlen := (go_length _).1 hg
        obtain ⟨g1, g2, g3⟩ := (ih t (by omega)).1 _ _ _ hg
        have hrank : rank s.pre = p := by rw [hp]; rfl
        have := (ih r' (by omega)).2 m (.pre s e') ⟨by rw [hp]; simp, g1, by rw [hrank]; exact g2⟩ trivial
          (fun n hn => ⟨by rw [hrank]; exact (g3 n hn).2, (g3 n hn).1⟩)
        rw [hlp] at this
        exact this
      · intro m l h1 h2 h3
        cases hpost : s.post with
        | some p =>
          have hrank : rank s.post = p := by rw [hpost]; rfl
          by_cases hm : m ≤ 2 * p
          · rw [loopN_post hpost hm]
            refine (ih t (by omega)).2 m (.post s l) ⟨by rw [hpost]; simp, h1, ?_⟩ ⟨by rw [hrank]; exact hm, h2⟩
              (fun _ _ => trivial)
            rw [hrank]
            exact h3 _ (.inl ⟨p, hpost, rfl⟩)
          · have hst : loopN m l (.op s :: t) = (l, .op s :: t) := loopN_stop
              ⟨(fun q hq => by rw [hpost] at hq; cases hq; omega), (fun q hq => by rw [post_inf hpost] at hq; cases hq)⟩
            rw [hst]
            refine ⟨h1, h2, fun n hn => ⟨h3 n hn, ?_⟩⟩
            rcases hn with ⟨q, hq, rfl⟩ | ⟨q, hq, _⟩
            · rw [hpost] at hq; cases hq; omega
            · rw [post_inf hpost] at hq; cases hq
        | none =>
          cases hinf : s.inf with
          | none =>
            have hst : loopN m l (.op s :: t) = (l, .op s :: t) := loopN_stop
              ⟨(fun q hq => by rw [hpost] at hq; cases hq), (fun q hq => by rw [hinf] at hq; cases hq)⟩
            rw [hst]
            refine ⟨h1, h2, fun n hn => ?_⟩
            rcases hn with ⟨q, hq, _⟩ | ⟨q, hq, _⟩
            · rw [hpost] at hq; cases hq
            · rw [hinf] at hq; cases hq
          | some p =>
            have hrank : rank s.inf = p := by rw [hinf]; rfl
            by_cases hm : m ≤ 2 * p
            · cases hg : goN (2 * p + 1) t with
              | none =>
                have hst : loopN m l (.op s :: t) = (l, .op s :: t) := by
                  rw [goN] at hg
                  simp only [loopN, List.length_cons, loop, hpost, hinf, hm, if_true, hg]
                rw [hst]
                refine ⟨h1, h2, fun n hn => ?_⟩
                rcases hn with ⟨q, hq, _⟩ | ⟨q, _, _, hq⟩
                · rw [hpost] at hq; cases hq
                · exact absurd (go_none 0 hg) hq
              | some x =>
                obtain ⟨e', r'⟩ := x
                have hlen := (go_length _).1 hg
                obtain ⟨g1, g2, g3⟩ := (ih t (by omega)).1 _ _ _ hg
                rw [loopN_inf hpost hinf hm hg]
                refine (ih r' (by omega)).2 m (.inf s l e') ⟨by rw [hinf]; simp, h1, g1, ?_, by rw [hrank]; exact g2⟩
                  ⟨by rw [hrank]; exact hm, h2⟩ (fun n hn => ⟨by rw [hrank]; exact (g3 n hn).2, (g3 n hn).1⟩)
                rw [hrank]
                refine h3 _ (.inr ⟨p, hinf, rfl, ?_⟩)
                intro h0
                have := go_none (2 * p + 1) h0
                rw [goN] at hg
                rw [this] at hg
                cases hg
            · have hst : loopN m l (.op s :: t) = (l, .op s :: t) := loopN_stop
                ⟨(fun q hq => by rw [hpost] at hq; cases hq), (fun q hq => by rw [hinf] at hq; cases hq; omega)⟩
              rw [hst]
              refine ⟨h1, h2, fun n hn => ⟨h3 n hn, ?_⟩⟩
              rcases hn with ⟨q, hq, _⟩ | ⟨q, hq, rfl, _⟩
              · rw [hpost] at hq; cases hq
              · rw [hinf] at hq; cases hq; omega

/-! ## The conversion -/

/-- `leftTight` in powers. -/
def leftP (m : Nat) : Ex → Prop
  | .atom _ => True
  | .pre _ _ => True
  | .inf s l _ => m ≤ 2 * rank s.inf ∧ leftP m l
  | .post s e => m ≤ 2 * rank s.post ∧ leftP m e
  | .between _ e _ _ => m ≤ 32 ∧ leftP m e
  | .likeEscape _ e _ _ => m ≤ 32 ∧ leftP m e

/-- `rightTight` in powers. -/
def rightP (n : Nat) : Ex → Prop
  | .atom _ => True
  | .pre s e => n < 2 * rank s.pre ∧ rightP n e
  | .inf s _ r => n < 2 * rank s.inf + 1 ∧ rightP n r
  | .post _ _ => True
  | .between _ _ _ high => n < 29 ∧ rightP n high
  | .likeEscape _ _ _ _ => n < 33

theorem leftP_tight {n : Nat} {e : Ex} (h : leftP (2 * n) e) : leftTight false n e := by
  induction e with
  | atom a => trivial
  | pre s e => trivial
  | inf s l r ih => exact ⟨by have := h.1; simp; omega, ih h.2⟩
  | post s e ih => exact ⟨by have := h.1; simp; omega, ih h.2⟩
  | between k e low high ih => exact ⟨by have := h.1; simp; omega, ih h.2⟩
  | likeEscape k e p c ih => exact ⟨by have := h.1; simp; omega, ih h.2⟩

theorem leftP_strict {n : Nat} {e : Ex} (h : leftP (2 * n + 1) e) : leftTight true n e := by
  induction e with
  | atom a => trivial
  | pre s e => trivial
  | inf s l r ih => exact ⟨by have := h.1; simp; omega, ih h.2⟩
  | post s e ih => exact ⟨by have := h.1; simp; omega, ih h.2⟩
  | between k e low high ih => exact ⟨by have := h.1; simp; omega, ih h.2⟩
  | likeEscape k e p c ih => exact ⟨by have := h.1; simp; omega, ih h.2⟩

theorem rightP_tight {n : Nat} {e : Ex} (h : rightP (2 * n) e) : rightTight n e := by
  induction e with
  | atom a => trivial
  | pre s e ih => exact ⟨by have := h.1; omega, ih h.2⟩
  | inf s l r _ ih => exact ⟨by have := h.1; omega, ih h.2⟩
  | post s e => trivial
  | between k e low high _ _ ih => exact ⟨by have := h.1; omega, ih h.2⟩
  | likeEscape k e p c => simp only [rightP] at h; simp only [rightTight]; omega

/-- The left edge of a fragment with expressions in it. -/
def leftF (m : Nat) : Frag → Prop
  | .single e => leftP m e
  | .pre _ _ => True
  | .inf s l _ => m ≤ 2 * rank s.inf ∧ leftF m l
  | .post s e => m ≤ 2 * rank s.post ∧ leftF m e

/-- The right edge. -/
def rightF (n : Nat) : Frag → Prop
  | .single e => rightP n e
  | .pre s e => n < 2 * rank s.pre ∧ rightF n e
  | .inf s _ r => n < 2 * rank s.inf + 1 ∧ rightF n r
  | .post _ _ => True

/-- No `AND` and no `BETWEEN` with its bounds is at the right edge. -/
def noAnd : Frag → Prop
  | .single e => noBetweenRight e
  | .pre _ e => noAnd e
  | .inf s _ r => s ≠ .and ∧ noAnd r
  | .post _ _ => True

/-- What the conversion works on. -/
def WFs : Frag → Prop
  | .single e => Clear e
  | .pre s e => s.pre ≠ none ∧ WFs e ∧ leftF (2 * rank s.pre) e
  | .inf s l r => s.inf ≠ none ∧ WFs l ∧ WFs r ∧ rightF (2 * rank s.inf) l ∧ leftF (2 * rank s.inf + 1) r ∧
    (∀ k, s = .between k → noAnd r)
  | .post s e => s.post ≠ none ∧ WFs e ∧ rightF (2 * rank s.post) e

theorem leftOk_leftF {m : Nat} {f : Frag} (hw : WF f) (h : leftOk m f) : leftF m f := by
  induction f with
  | single e => obtain ⟨a, rfl⟩ := hw; trivial
  | pre s e => trivial
  | inf s l r ih => exact ⟨h.1, ih hw.2.1 h.2⟩
  | post s e ih => exact ⟨h.1, ih hw.2.1 h.2⟩

theorem rightOk_rightF {n : Nat} {f : Frag} (hw : WF f) (h : rightOk n f) : rightF n f := by
  induction f with
  | single e => obtain ⟨a, rfl⟩ := hw; trivial
  | pre s e ih => exact ⟨h.1, ih hw.2.1 h.2⟩
  | inf s l r _ ih => exact ⟨h.1, ih hw.2.2.1 h.2⟩
  | post s e => trivial

theorem noAnd_of {f : Frag} (hw : WF f) : ∀ {m : Nat}, 29 ≤ m → leftOk m f → noAnd f := by
  induction f with
  | single e => intro m _ _; obtain ⟨a, rfl⟩ := hw; trivial
  | pre s e ih =>
    intro m _ _
    obtain ⟨h1, h2, h3⟩ := hw
    have hr : 15 ≤ rank s.pre := by
      cases s <;> first | exact absurd rfl h1 | decide
    exact ih h2 (by omega) h3
  | inf s l r _ ih =>
    intro m hm h
    obtain ⟨h1, h2, h3, h4, h5⟩ := hw
    have := h.1
    refine ⟨?_, ih h3 (by omega) h5⟩
    rintro rfl
    have hr : rank (Sym.inf .and) = 14 := rfl
    omega
  | post s e => intro m _ _; trivial

theorem WF_WFs {f : Frag} (hw : WF f) : WFs f := by
  induction f with
  | single e => obtain ⟨a, rfl⟩ := hw; trivial
  | pre s e ih =>
    obtain ⟨h1, h2, h3⟩ := hw
    exact ⟨h1, ih h2, leftOk_leftF h2 h3⟩
  | inf s l r ihl ihr =>
    obtain ⟨h1, h2, h3, h4, h5⟩ := hw
    refine ⟨h1, ihl h2, ihr h3, rightOk_rightF h2 h4, leftOk_leftF h3 h5, ?_⟩
    rintro k rfl
    exact noAnd_of h3 (m := 33) (by omega) h5
  | post s e ih =>
    obtain ⟨h1, h2, h3⟩ := hw
    exact ⟨h1, ih h2, rightOk_rightF h2 h3⟩

theorem build_noBetween {f : Frag} : ∀ {e : Ex}, noAnd f → build f = some e → noBetweenRight e := by
  induction f with
  | single x => intro e h hb; rw [build] at hb; cases hb; exact h
  | pre s f ih =>
    intro e h hb
    rw [build] at hb
    split at hb
    · cases hb
    · rename_i e' he
      cases hb
      exact ih (e := e') h he
  | inf s l r ihl ihr =>
    intro e h hb
    rw [build] at hb
    split at hb
    · rename_i hs
      exact absurd (by cases s <;> first | (cases hs; rfl) | cases hs) h.1
    · cases hb
    · split at hb
      · split at hb
        · cases hb
        · split at hb
          · cases hb
          · cases hb; trivial
      · split at hb
        · cases hb
        · rename_i r' hr
          split at hb
          · cases hb
          · cases hb
            exact ihr (e := r') h.2 hr
    · split at hb
      · cases hb
      · split at hb
        · cases hb
        · rename_i r' hr
          cases hb
          exact ihr (e := r') h.2 hr
  | post s f =>
    intro e h hb
    rw [build] at hb
    split at hb
    · cases hb
    · split at hb
      · cases hb
      · cases hb; trivial

/-- What is known of the parts of the `BETWEEN` that is found. -/
theorem pending_wf {l e low : Frag} {k : Nat} (hw : WFs l) (hr : rightF 28 l) (h : pending l = some (e, k, low)) :
    WFs e ∧ WFs low ∧ rightF 32 e ∧ leftF 33 low ∧ rightF 28 low ∧ noAnd low := by
  induction l with
  | single x => cases h
  | pre s f ih => exact ih hw.2.1 hr.2 h
  | inf s a b _ ihb =>
    obtain ⟨h1, h2, h3, h4, h5, h6⟩ := hw
    cases hs : s.kind with
    | between k' =>
      have hk := kind_between hs
      subst hk
      cases h
      exact ⟨h2, h3, h4, h5, hr.2, h6 k rfl⟩
    | _ =>
      have hk : ∀ k, s ≠ .between k := by
        intro k e
        subst e
        cases hs
      rw [pending_inf hk] at h
      exact ihb h3 hr.2 h
  | post s f => cases h

theorem plug_wf {l e low : Frag} {k : Nat} {x high : Ex} (hw : WFs l) (hr : rightF 28 l)
    (h : pending l = some (e, k, low)) (hx : Clear x) (hxl : ∀ m, m ≤ 32 → leftF m e → leftP m x)
    (hxr : ∀ n, n < 29 → rightP n high → rightP n x) :
    WFs (plug x l) ∧ (∀ m, leftF m l → leftF m (plug x l)) ∧
      ∀ n, n < 29 → rightP n high → rightF n (plug x l) := by
  induction l with
  | single x => cases h
  | pre s f ih =>
    obtain ⟨i1, i2, i3⟩ := ih hw.2.1 hr.2 h
    have := hr.1
    exact ⟨⟨hw.1, i1, i2 _ hw.2.2⟩, fun _ _ => trivial, fun n hn hh => ⟨by omega, i3 n hn hh⟩⟩
  | inf s a b _ ihb =>
    obtain ⟨h1, h2, h3, h4, h5, h6⟩ := hw
    cases hs : s.kind with
    | between k' =>
      have hk := kind_between hs
      subst hk
      cases h
      exact ⟨hx, fun m hm => hxl m hm.1 hm.2, hxr⟩
    | _ =>
      have hk : ∀ k, s ≠ .between k := by
        intro k e
        subst e
        cases hs
      rw [pending_inf hk] at h
      obtain ⟨i1, i2, i3⟩ := ihb h3 hr.2 h
      have := hr.1
      rw [plug_inf hk]
      exact ⟨⟨h1, h2, i1, h4, i2 _ h5, fun k e => absurd e (hk k)⟩, fun m hm => hm, fun n hn hh => ⟨by omega, i3 n hn hh⟩⟩
  | post s f => cases h

/-- What is converted needs no parentheses, and has the edges of the fragment. -/
theorem build_clear : ∀ (n : Nat) (f : Frag), f.size ≤ n → ∀ e, WFs f → build f = some e →
    Clear e ∧ (∀ m, leftF m f → leftP m e) ∧ ∀ m, rightF m f → rightP m e := by
  intro n
  induction n with
  | zero => intro f hf; cases f <;> simp [Frag.size] at hf
  | succ n ih =>
    intro f hf e hw h
    have infCase : ∀ (s : Sym) (l r : Frag) (l' r' : Ex), f = .inf s l r → (∀ k, s ≠ .between k) →
        build l = some l' → build r = some r' → e = .inf s l' r' →
        Clear e ∧ (∀ m, leftF m f → leftP m e) ∧ ∀ m, rightF m f → rightP m e := by
      rintro s l r l' r' rfl hk hl hr rfl
      simp only [Frag.size] at hf
      obtain ⟨h1, h2, h3, h4, h5, _⟩ := hw
      obtain ⟨a1, a2, a3⟩ := ih l (by omega) l' h2 hl
      obtain ⟨b1, b2, b3⟩ := ih r (by omega) r' h3 hr
      exact ⟨⟨h1, hk, a1, b1, rightP_tight (a3 _ h4), leftP_strict (b2 _ h5)⟩, fun m hm => ⟨hm.1, a2 m hm.2⟩,
        fun m hm => ⟨hm.1, b3 m hm.2⟩⟩
    cases f with
    | single x => rw [build] at h; cases h; exact ⟨hw, fun _ h => h, fun _ h => h⟩
    | pre s f =>
      simp only [Frag.size] at hf
      rw [build] at h
      split at h
      · cases h
      · rename_i e' he
        cases h
        obtain ⟨i1, i2, i3⟩ := ih f (by omega) e' hw.2.1 he
        exact ⟨⟨hw.1, i1, leftP_tight (i2 _ hw.2.2)⟩, fun _ _ => trivial, fun m hm => ⟨hm.1, i3 m hm.2⟩⟩
    | inf s l r =>
      simp only [Frag.size] at hf
      rw [build] at h
      split at h
      · rename_i hs
        have hs : s = .and := by cases s <;> first | (cases hs; rfl) | cases hs
        subst hs
        split at h
        · rename_i e0 k low hp
          have hsz := pending_size hp
          split at h
          · cases h
          · rename_i e' he
            split at h
            · cases h
            · rename_i low' hlow
              split at h
              · cases h
              · rename_i high hhigh
                obtain ⟨h1, h2, h3, h4, h5, _⟩ := hw
                obtain ⟨p1, p2, p3, p4, p5, p6⟩ := pending_wf h2 h4 hp
                obtain ⟨a1, a2, a3⟩ := ih e0 (by omega) e' p1 he
                obtain ⟨b1, b2, b3⟩ := ih low (by omega) low' p2 hlow
                obtain ⟨c1, c2, c3⟩ := ih r (by omega) high h3 hhigh
                have hx : Clear (.between k e' low' high) :=
                  ⟨a1, b1, c1, rightP_tight (a3 _ p3), leftP_strict (b2 _ p4), rightP_tight (b3 _ p5),
                    build_noBetween p6 hlow, leftP_strict (c2 _ h5)⟩
                obtain ⟨q1, q2, q3⟩ := plug_wf (high := high) h2 h4 hp hx (fun m hm hl => ⟨hm, a2 m hl⟩)
                  (fun n hn hh => ⟨hn, hh⟩)
                have hps := plug_size (.between k e' low' high) l
                obtain ⟨d1, d2, d3⟩ := ih _ (by omega) e q1 h
                exact ⟨d1, fun m hm => d2 m (q2 m hm.2), fun m hm => d3 m (q3 m hm.1 (c3 m hm.2))⟩
        · split at h
          · cases h
          · rename_i l' hl
            split at h
            · cases h
            · rename_i r' hr
              cases h
              exact infCase .and l r l' r' rfl (by simp) hl hr rfl
      · cases h
      · rename_i k hs
        have hs : s = .like k := by cases s <;> first | (cases hs; rfl) | cases hs
        subst hs
        split at h
        · rename_i p c hp
          have hsz := escapeOf_size hp
          have hr : r = .post (.escape c) p := by
            unfold escapeOf at hp
            split at hp
            · cases hp; rfl
            · cases hp
          subst hr
          split at h
          · cases h
          · rename_i p' hp'
            split at h
            · cases h
            · rename_i l' hl
              cases h
              obtain ⟨h1, h2, h3, h4, h5, _⟩ := hw
              obtain ⟨a1, a2, a3⟩ := ih l (by omega) l' h2 hl
              obtain ⟨b1, b2, b3⟩ := ih p (by omega) p' h3.2.1 hp'
              exact ⟨⟨a1, b1, rightP_tight (a3 _ h4), leftP_strict (b2 _ h5.2), rightP_tight (b3 _ h3.2.2)⟩,
                fun m hm => ⟨hm.1, a2 m hm.2⟩, fun m hm => hm.1⟩
        · split at h
          · cases h
          · rename_i r' hr
            split at h
            · cases h
            · rename_i l' hl
              cases h
              exact infCase _ l r l' r' rfl (by simp) hl hr rfl
      · rename_i hs
        split at h
        · cases h
        · rename_i l' hl
          split at h
          · cases h
          · rename_i r' hr
            cases h
            exact infCase s l r l' r' rfl (by rintro k rfl; cases hs) hl hr rfl
    | post s f =>
      simp only [Frag.size] at hf
      rw [build] at h
      split at h
      · cases h
      · rename_i hne
        split at h
        · cases h
        · rename_i e' he
          cases h
          obtain ⟨i1, i2, i3⟩ := ih f (by omega) e' hw.2.1 he
          refine ⟨⟨hw.1, ?_, i1, rightP_tight (i3 _ hw.2.2)⟩, fun m hm => ⟨hm.1, i2 m hm.2⟩, fun _ _ => trivial⟩
          rintro c rfl
          cases hne

/-- Whatever is read has the tokens that were read, and none of its parts needs parentheses. -/
theorem C92_only {ts r : List Tok} {e : Ex} (h : parseExpr ts = some (e, r)) : ts = text e ++ r ∧ Clear e := by
  refine ⟨C92_text h, ?_⟩
  rw [parseExpr] at h
  split at h
  · cases h
  · rename_i f r' hg
    split at h
    · cases h
    · rename_i e' hb
      cases h
      have hw := ((go_good _ ts (Nat.le_refl _)).1 0 f r hg).1
      exact (build_clear _ f (Nat.le_refl _) e (WF_WFs hw) hb).1

/-- The expressions that are read are exactly those that need no parentheses. -/
theorem C92_iff (ts : List Tok) (e : Ex) : parseExpr ts = some (e, []) ↔ ts = text e ∧ Clear e := by
  constructor
  · intro h
    have := C92_only h
    rw [List.append_nil] at this
    exact this
  · rintro ⟨rfl, h⟩
    have := C92_round_trip h (r := []) trivial
    rwa [List.append_nil] at this

/-- `a AND b NOT BETWEEN c + d AND e AND f`. -/
example : parseExpr [.atom 0, .op .and, .atom 1, .op (.between 1), .atom 2, .op .plus, .atom 3, .op .and, .atom 4, .op .and,
      .atom 5] =
    some (.inf .and (.inf .and (.atom 0) (.between 1 (.atom 1) (.inf .plus (.atom 2) (.atom 3)) (.atom 4))) (.atom 5), []) := by
  rw [C92_iff]
  refine ⟨rfl, ?_⟩
  simp [Clear, rightTight, leftTight, noBetweenRight, rank, Sym.inf]

/-- `NOT a BETWEEN - b AND NOT c = d OR e`. -/
example : parseExpr [.op .not, .atom 0, .op (.between 0), .op .minus, .atom 1, .op .and, .op .not, .atom 2, .op (.cmp 0), .atom 3,
      .op .or, .atom 4] =
    some (.inf .or (.pre .not (.between 0 (.atom 0) (.pre .minus (.atom 1)) (.pre .not (.inf (.cmp 0) (.atom 2) (.atom 3)))))
      (.atom 4), []) := by
  rw [C92_iff]
  refine ⟨rfl, ?_⟩
  simp [Clear, rightTight, leftTight, noBetweenRight, rank, Sym.inf, Sym.pre]

/-- `a LIKE b || c ESCAPE '#' IS NULL` is `(a LIKE b || c ESCAPE '#') IS NULL`. -/
example : parseExpr [.atom 0, .op (.like 0), .atom 1, .op .concat, .atom 2, .op (.escape 7), .op (.test 0)] =
    some (.post (.test 0) (.likeEscape 0 (.atom 0) (.inf .concat (.atom 1) (.atom 2)) 7), []) := by
  rw [C92_iff]
  refine ⟨rfl, ?_⟩
  simp [Clear, rightTight, leftTight, rank, Sym.inf, Sym.post]

/-- `a BETWEEN b` is an error: the tokens are not those of any expression. -/
example : parseExpr [.atom 0, .op (.between 0), .atom 1] = none := by
  simp [parseExpr, go, loop, Sym.inf, Sym.post, build, Sym.kind]

end Verif.Sql.Pratt
