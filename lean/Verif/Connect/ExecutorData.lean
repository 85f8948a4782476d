import Verif.Connect.ExecutorLemmas

/-!
# What the outputs of an operation carry
-/

namespace Verif.Connect

variable {α ρ : Type}

/-- The rows or the result in a response. -/
def Body.content : Body α ρ → List (α ⊕ ρ)
  | .batch rows => rows.map .inl
  | .result r => [.inr r]
  | _ => []

def contentOf (l : List (Out α ρ)) : List (α ⊕ ρ) := l.flatMap fun o => o.body.content

def HasComplete (l : List (Out α ρ)) : Prop := ∃ o ∈ l, o.body = .complete

/-- What an operation over these batches is to deliver. -/
def Mode.total : Mode α ρ → List (List α) → List (α ⊕ ρ)
  | .query, all => all.flatten.map .inl
  | .command f, all =>
    match f all with
    | some (some r) => [.inr r]
    | _ => []

/-- What is still to be emitted. -/
def Mode.todo : Mode α ρ → List (List α) → List (List α) → Bool → List (α ⊕ ρ)
  | .query, src, _, _ => Mode.total (.query : Mode α ρ) src
  | .command f, src, held, taken => if taken then [] else Mode.total (.command f) (held ++ src)

def Mode.isCommand : Mode α ρ → Bool
  | .query => false
  | .command _ => true

/-- The stream has ended well and the result of a command is emitted. -/
def Fin (c : Cfg α ρ) (src : List (List α)) (bad taken : Bool) : Prop :=
  src = [] ∧ bad = false ∧ (c.mode.isCommand = true → taken = true)

structure Data0 (c : Cfg α ρ) (all : List (List α)) (bad0 : Bool) (s : Sys α ρ) : Prop where
  sum : contentOf s.emitted ++ c.mode.todo s.src s.held s.taken = c.mode.total all
  fin : HasComplete s.emitted → Fin c s.src s.bad s.taken
  pre : ∀ p q, s.emitted = p ++ q → HasComplete p → contentOf p = c.mode.total all
  held : c.mode.isCommand = true → s.taken = false → s.held ++ s.src = all
  runs : s.runs = if s.taken then 1 else 0
  tk : s.taken = true → s.src = [] ∧ s.bad = false
  bad : s.bad = bad0
  query : c.mode.isCommand = false → s.taken = false

def pcFin (c : Cfg α ρ) (s : Sys α ρ) : Prop :=
  match s.pc with
  | .put _ .finish => Fin c s.src s.bad s.taken
  | .put _ .done => Fin c s.src s.bad s.taken
  | .returned .completed => Fin c s.src s.bad s.taken
  | _ => True

structure Data (c : Cfg α ρ) (all : List (List α)) (bad0 : Bool) (s : Sys α ρ) : Prop
    extends Data0 c all bad0 s where
  pcf : pcFin c s

theorem contentOf_append (l m : List (Out α ρ)) : contentOf (l ++ m) = contentOf l ++ contentOf m :=
  List.flatMap_append

theorem contentOf_single (o : Out α ρ) : contentOf [o] = o.body.content := by
  simp [contentOf]

theorem hasComplete_append {l m : List (Out α ρ)} :
    HasComplete (l ++ m) ↔ HasComplete l ∨ HasComplete m := by
  simp only [HasComplete, List.mem_append]
  constructor
  · rintro ⟨o, h | h, hb⟩
    · exact .inl ⟨o, h, hb⟩
    · exact .inr ⟨o, h, hb⟩
  · rintro (⟨o, h, hb⟩ | ⟨o, h, hb⟩)
    · exact ⟨o, .inl h, hb⟩
    · exact ⟨o, .inr h, hb⟩

theorem todo_fin {c : Cfg α ρ} {src held : List (List α)} {bad taken : Bool}
    (h : Fin c src bad taken) : c.mode.todo src held taken = [] := by
  obtain ⟨h1, -, h3⟩ := h
  cases hm : c.mode with
  | query => simp [Mode.todo, Mode.total, h1]
  | command f => simp [Mode.todo, h3 (by rw [hm]; rfl)]

/-- Emitting an output, with a change of what is left to do. -/
theorem Data0.emit {c : Cfg α ρ} {all : List (List α)} {bad0 : Bool} {s : Sys α ρ}
    (h : Data0 c all bad0 s) (b : Body α ρ) (k : Kont) (src held : List (List α)) (taken : Bool)
    (runs : Nat)
    (hsum : b.content ++ c.mode.todo src held taken = c.mode.todo s.src s.held s.taken)
    (hfin : Fin c s.src s.bad s.taken → Fin c src s.bad taken)
    (hb : b = .complete → Fin c src s.bad taken)
    (hk : (∃ e, k = .next e) ∨ Fin c src s.bad taken)
    (hheld : c.mode.isCommand = true → taken = false → held ++ src = all)
    (hruns : runs = if taken then 1 else 0)
    (htk : taken = true → src = [] ∧ s.bad = false)
    (hq : c.mode.isCommand = false → taken = false) :
    Data c all bad0
      (emit c { s with src := src, held := held, taken := taken, runs := runs } b k) := by
  have hs : contentOf (s.emitted ++ [⟨s.nextId, b⟩]) ++ c.mode.todo src held taken
      = c.mode.total all := by
    rw [contentOf_append, contentOf_single, List.append_assoc, hsum]
    exact h.sum
  refine ⟨⟨hs, fun hc => ?_, fun p q hpq hc => ?_, hheld, hruns, htk, h.bad, hq⟩, ?_⟩
  · rcases hasComplete_append.1 hc with hc | ⟨o, ho, hob⟩
    · exact hfin (h.fin hc)
    · simp only [List.mem_singleton] at ho
      subst ho
      exact hb hob
  · rcases List.eq_nil_or_concat q with rfl | ⟨q', o, rfl⟩
    · have hpq : s.emitted ++ [⟨s.nextId, b⟩] = p ++ [] := hpq
      have hF : Fin c src s.bad taken := by
        rw [List.append_nil] at hpq
        rw [← hpq] at hc
        rcases hasComplete_append.1 hc with hc | ⟨o, ho, hob⟩
        · exact hfin (h.fin hc)
        · simp only [List.mem_singleton] at ho
          subst ho
          exact hb hob
      rw [hpq, todo_fin hF] at hs
      simpa using hs
    · have hpq : s.emitted ++ [⟨s.nextId, b⟩] = p ++ (q' ++ [o]) := by
        simpa [Connect.emit] using hpq
      rw [← List.append_assoc] at hpq
      have := List.append_inj' hpq rfl
      exact h.pre p q' this.1 hc
  · simp only [pcFin, Connect.emit]
    rcases hk with ⟨e, rfl⟩ | hF
    · trivial
    · cases k <;> first | trivial | exact hF

theorem Data0.emitSame {c : Cfg α ρ} {all : List (List α)} {bad0 : Bool} {s : Sys α ρ}
    (h : Data0 c all bad0 s) (b : Body α ρ) (k : Kont) (hb : b.content = [])
    (hc : b = .complete → Fin c s.src s.bad s.taken)
    (hk : (∃ e, k = .next e) ∨ Fin c s.src s.bad s.taken) :
    Data c all bad0 (Connect.emit c s b k) :=
  h.emit b k s.src s.held s.taken s.runs (by rw [hb]; rfl) id hc hk h.held h.runs h.tk h.query

theorem Data0.continueWith {c : Cfg α ρ} {all : List (List α)} {bad0 : Bool} {s : Sys α ρ}
    (h : Data0 c all bad0 s) (k : Kont) (hk : (∃ e, k = .next e) ∨ Fin c s.src s.bad s.taken) :
    Data c all bad0 (continueWith c s k) := by
  cases k with
  | next e => exact ⟨⟨h.1, h.2, h.3, h.4, h.5, h.6, h.7, h.8⟩, trivial⟩
  | finish =>
    have hF : Fin c s.src s.bad s.taken := by
      rcases hk with ⟨e, he⟩ | hF
      · exact absurd he (by simp)
      · exact hF
    simp only [Connect.continueWith]
    cases hre : c.reattachable with
    | true => exact h.emitSame _ _ rfl (fun _ => hF) (.inr hF)
    | false => exact ⟨⟨h.1, h.2, h.3, h.4, h.5, h.6, h.7, h.8⟩, hF⟩
  | done =>
    have hF : Fin c s.src s.bad s.taken := by
      rcases hk with ⟨e, he⟩ | hF
      · exact absurd he (by simp)
      · exact hF
    exact ⟨⟨h.1, h.2, h.3, h.4, h.5, h.6, h.7, h.8⟩, hF⟩

theorem Data0.begin {c : Cfg α ρ} {all : List (List α)} {bad0 : Bool} {s : Sys α ρ}
    (h : Data0 c all bad0 s) : Data c all bad0 (begin c s) := by
  unfold Connect.begin
  split
  · exact h.emitSame _ _ rfl (fun hx => absurd hx (by simp)) (.inl ⟨_, rfl⟩)
  · exact ⟨⟨h.1, h.2, h.3, h.4, h.5, h.6, h.7, h.8⟩, trivial⟩

theorem Data0.startTask {c : Cfg α ρ} {all : List (List α)} {bad0 : Bool} {s : Sys α ρ}
    (h : Data0 c all bad0 s) : Data c all bad0 (startTask c s) := by
  unfold Connect.startTask
  split
  · exact h.begin
  · exact ⟨⟨h.1, h.2, h.3, h.4, h.5, h.6, h.7, h.8⟩, trivial⟩

theorem Data0.streamEnd {c : Cfg α ρ} {all : List (List α)} {bad0 : Bool} {s : Sys α ρ}
    (h : Data0 c all bad0 s) (e : Bool) (hsrc : s.src = []) (hbad : s.bad = false) :
    Data c all bad0 (streamEnd c s e) := by
  unfold Connect.streamEnd
  split
  · rename_i hm
    have hF : Fin c s.src s.bad s.taken := ⟨hsrc, hbad, fun hx => by simp [hm, Mode.isCommand] at hx⟩
    split
    · exact h.emitSame _ _ rfl (fun hx => absurd hx (by simp)) (.inr hF)
    · exact h.continueWith _ (.inr hF)
  · rename_i f hm
    split
    · rename_i ht
      exact h.continueWith _ (.inr ⟨hsrc, hbad, fun _ => ht⟩)
    · rename_i ht
      have ht : s.taken = false := by simpa using ht
      have hheld : s.held = all := by
        have := h.held (by rw [hm]; rfl) ht
        simpa [hsrc] using this
      have hsum := h.sum
      rw [hm, ht, hsrc] at hsum
      simp only [Mode.todo] at hsum
      have hquery : c.mode.isCommand = false → true = false := fun hx => by
        simp [hm, Mode.isCommand] at hx
      have hruns : s.runs + 1 = if true then 1 else 0 := by
        have := h.runs
        rw [ht] at this
        simp at this
        simp [this]
      split
      · rename_i hf
        refine ⟨⟨?_, fun hc => ?_, h.pre, ?_, hruns, fun _ => ⟨hsrc, hbad⟩, h.bad, hquery⟩, trivial⟩
        · rw [hm]
          simp only [Mode.todo]
          rw [← hsum]
          simp [Mode.total, hf]
        · obtain ⟨h1, h2, -⟩ := h.fin hc
          exact ⟨h1, h2, fun _ => rfl⟩
        · exact fun _ hx => absurd hx (by simp)
      · rename_i hf
        have : Data0 c all bad0 { s with taken := true, held := [], runs := s.runs + 1 } := by
          refine ⟨?_, fun hc => ?_, h.pre, ?_, hruns, fun _ => ⟨hsrc, hbad⟩, h.bad, hquery⟩
          · rw [hm]
            simp only [Mode.todo]
            rw [← hsum]
            simp [Mode.total, hf]
          · obtain ⟨h1, h2, -⟩ := h.fin hc
            exact ⟨h1, h2, fun _ => rfl⟩
          · exact fun _ hx => absurd hx (by simp)
        exact this.continueWith _ (.inr ⟨hsrc, hbad, fun _ => rfl⟩)
      · rename_i r hf
        refine h.emit _ _ s.src [] true (s.runs + 1) ?_ ?_ ?_ ?_ ?_ hruns ?_ hquery
        · rw [hm, ht, hsrc]
          simp [Mode.todo, Mode.total, hf, Body.content]
        · exact fun hF => ⟨hF.1, hF.2.1, fun _ => rfl⟩
        · exact fun hx => absurd hx (by simp)
        · exact .inr ⟨hsrc, hbad, fun _ => rfl⟩
        · exact fun _ hx => absurd hx (by simp)
        · exact fun _ => ⟨hsrc, hbad⟩

theorem Data0.streamNext {c : Cfg α ρ} {all : List (List α)} {bad0 : Bool} {s : Sys α ρ}
    (h : Data0 c all bad0 s) (e : Bool) (hpc : s.pc = .next e) :
    Data c all bad0 (streamNext c s e) := by
  unfold Connect.streamNext
  split
  · rename_i b rest hsrc
    split
    · rename_i hm
      refine h.emit _ _ rest s.held s.taken s.runs ?_ ?_ ?_ (.inl ⟨_, rfl⟩) ?_ h.runs ?_ h.query
      · rw [hm, hsrc]
        simp [Mode.todo, Mode.total, Body.content]
      · intro hF
        rw [hsrc] at hF
        exact absurd hF.1 (by simp)
      · exact fun hx => absurd hx (by simp)
      · exact fun hx => by simp [hm, Mode.isCommand] at hx
      · intro ht
        have := (h.tk ht).1
        rw [hsrc] at this
        exact absurd this (by simp)
    · rename_i f hm
      have ht : s.taken = false := by
        cases ht : s.taken with
        | false => rfl
        | true =>
          have := (h.tk ht).1
          rw [hsrc] at this
          exact absurd this (by simp)
      refine ⟨⟨?_, fun hc => ?_, h.pre, fun _ _ => ?_, h.runs, fun hx => ?_, h.bad, h.query⟩, ?_⟩
      · have := h.sum
        rw [hm, hsrc] at this
        rw [hm]
        simp only [Mode.todo] at this ⊢
        rw [show s.held ++ [b] ++ rest = s.held ++ b :: rest by simp]
        exact this
      · have := (h.fin hc).1
        rw [hsrc] at this
        exact absurd this (by simp)
      · have := h.held (by rw [hm]; rfl) ht
        rw [hsrc] at this
        simpa using this
      · have : s.taken = true := hx
        rw [ht] at this
        exact absurd this (by simp)
      · simp only [pcFin, hpc]
  · rename_i hsrc
    split
    · exact ⟨⟨h.1, h.2, h.3, h.4, h.5, h.6, h.7, h.8⟩, trivial⟩
    · rename_i hbad
      exact h.streamEnd e hsrc (by simpa using hbad)

theorem data_init (c : Cfg α ρ) (batches : List (List α)) (bad : Bool) :
    Data c batches bad (init c batches bad) := by
  unfold init
  apply Data0.startTask
  refine ⟨?_, fun ⟨o, ho, _⟩ => absurd ho (by simp), fun p q hpq ⟨o, ho, _⟩ => ?_, fun _ _ => rfl,
    rfl, fun hx => absurd hx (by simp), rfl, fun _ => rfl⟩
  · cases hm : c.mode <;> simp [Mode.todo, contentOf]
  · have : p = [] := by
      have hpq : [] = p ++ q := hpq
      simp at hpq
      exact hpq.1
    rw [this] at ho
    exact absurd ho (by simp)

theorem data_work {c : Cfg α ρ} {all : List (List α)} {bad0 : Bool} {s : Sys α ρ}
    (h : Data c all bad0 s) : Data c all bad0 (work c s) := by
  have h0 := h.toData0
  unfold work
  split
  · rename_i o rest hpc
    split
    · exact ⟨⟨h0.1, h0.2, h0.3, h0.4, h0.5, h0.6, h0.7, h0.8⟩, trivial⟩
    · split
      · split
        · exact Data0.begin ⟨h0.1, h0.2, h0.3, h0.4, h0.5, h0.6, h0.7, h0.8⟩
        · exact ⟨⟨h0.1, h0.2, h0.3, h0.4, h0.5, h0.6, h0.7, h0.8⟩, trivial⟩
      · exact h
  · rename_i o k hpc
    split
    · exact ⟨⟨h0.1, h0.2, h0.3, h0.4, h0.5, h0.6, h0.7, h0.8⟩, trivial⟩
    · split
      · apply Data0.continueWith
        · exact ⟨h0.1, h0.2, h0.3, h0.4, h0.5, h0.6, h0.7, h0.8⟩
        · have := h.pcf
          unfold pcFin at this
          rw [hpc] at this
          cases k with
          | next e => exact .inl ⟨e, rfl⟩
          | finish => exact .inr this
          | done => exact .inr this
      · exact h
  · rename_i e hpc
    exact h0.streamNext e hpc
  · split
    · exact ⟨⟨h0.1, h0.2, h0.3, h0.4, h0.5, h0.6, h0.7, h0.8⟩, trivial⟩
    · split
      · exact ⟨⟨h0.1, h0.2, h0.3, h0.4, h0.5, h0.6, h0.7, h0.8⟩, trivial⟩
      · exact h
  · exact h

theorem data_step {c : Cfg α ρ} {all : List (List α)} {bad0 : Bool} {s : Sys α ρ}
    (h : Data c all bad0 s) (e : Event) : Data c all bad0 (step c s e) := by
  have h0 := h.toData0
  have keep : ∀ s' : Sys α ρ, s'.src = s.src → s'.bad = s.bad → s'.held = s.held →
      s'.taken = s.taken → s'.emitted = s.emitted → s'.runs = s.runs →
      Data0 c all bad0 s' := by
    intro s' h1 h2 h3 h4 h5 h6
    refine ⟨?_, ?_, ?_, ?_, ?_, ?_, ?_, ?_⟩
    · rw [h5, h1, h3, h4]; exact h0.sum
    · rw [h5, h1, h2, h4]; exact h0.fin
    · rw [h5]; exact h0.pre
    · rw [h4, h3, h1]; exact h0.held
    · rw [h4, h6]; exact h0.runs
    · rw [h4, h1, h2]; exact h0.tk
    · rw [h2]; exact h0.bad
    · rw [h4]; exact h0.query
  have keepPc : ∀ s' : Sys α ρ, s'.src = s.src → s'.bad = s.bad → s'.held = s.held →
      s'.taken = s.taken → s'.emitted = s.emitted → s'.runs = s.runs → s'.pc = s.pc →
      Data c all bad0 s' := by
    intro s' h1 h2 h3 h4 h5 h6 h7
    refine ⟨keep s' h1 h2 h3 h4 h5 h6, ?_⟩
    have := h.pcf
    unfold pcFin at this ⊢
    rw [h7, h1, h2, h4]
    exact this
  cases e with
  | work => exact data_work h
  | beat =>
    simp only [step, beat]
    split
    · exact h0.emitSame _ _ rfl (fun hx => absurd hx (by simp)) (.inl ⟨_, rfl⟩)
    · exact h
  | stop =>
    simp only [step, stop]
    split
    · exact ⟨keep _ rfl rfl rfl rfl rfl rfl, trivial⟩
    · exact ⟨keep _ rfl rfl rfl rfl rfl rfl, trivial⟩
    · exact ⟨keep _ rfl rfl rfl rfl rfl rfl, trivial⟩
    · exact h
  | resume =>
    simp only [step, resume]
    split
    · exact Data0.startTask (keep _ rfl rfl rfl rfl rfl rfl)
    · exact keepPc _ rfl rfl rfl rfl rfl rfl rfl
    · exact keepPc _ rfl rfl rfl rfl rfl rfl rfl
    · exact h
  | reattach =>
    simp only [step, reattach]
    split
    · exact keepPc _ rfl rfl rfl rfl rfl rfl rfl
    · split
      · exact keepPc _ rfl rfl rfl rfl rfl rfl rfl
      · exact h
      · exact keepPc _ rfl rfl rfl rfl rfl rfl rfl
      · exact keepPc _ rfl rfl rfl rfl rfl rfl rfl
  | release i =>
    simp only [step, release]
    split
    · split
      · exact keepPc _ rfl rfl rfl rfl rfl rfl rfl
      · exact h
    · exact h
  | pull =>
    simp only [step, pull]
    split
    · exact keepPc _ rfl rfl rfl rfl rfl rfl rfl
    · exact h
  | deliver =>
    simp only [step, deliver]
    split
    · split
      · exact h
      · exact keepPc _ rfl rfl rfl rfl rfl rfl rfl
      · exact keepPc _ rfl rfl rfl rfl rfl rfl rfl
    · exact h
  | lose => exact keepPc _ rfl rfl rfl rfl rfl rfl rfl
  | drop => exact keepPc _ rfl rfl rfl rfl rfl rfl rfl

theorem data_run {c : Cfg α ρ} {all : List (List α)} {bad0 : Bool} (es : List Event) :
    ∀ s : Sys α ρ, Data c all bad0 s → Data c all bad0 (run c s es) := by
  induction es with
  | nil => exact fun s h => h
  | cons e es ih => exact fun s h => ih _ (data_step h e)

end Verif.Connect
