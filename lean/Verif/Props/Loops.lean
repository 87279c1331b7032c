import Verif.View.Loops

/-!
# C114: a meter is good for one `Start`

However often a meter is started and stopped: at most one of its loops ever ends, and any other that would end, or finds nothing left to
handle after that, ends the process. With one `Start` no loop ends the process and recordings are handled in the order in which they were
sent; with more they are still handled at most once each and none is lost, but not in order.
-/

namespace Verif.Props.Loops
open Verif Verif.View.Loops

/-! ## Specification -/

/-- The loops that have ended. -/
def ended (s : St) : Nat := s.loops.countP (· = .exited)

/-- How often a program calls `Start`. -/
def startsIn (p : List Call) : Nat := p.countP (· = .start)

/-- How often `Start` is still to be called. -/
def startsLeft (s : St) : Nat := (s.threads.map fun th => startsIn th.todo).sum

def starts (progs : List (List Call)) : Nat := (progs.map startsIn).sum

/-- The recording that a loop is handling. -/
def inHand : LP → List Nat
  | .got n => [n]
  | _ => []

/-- A process that began with these programs can be in this state. -/
def Reach (cap : Nat) (progs : List (List Call)) (s : St) : Prop := ∃ as, exec (init cap progs) as = some s

/-! ## Counting -/

theorem countP_set' {α : Type} (p : α → Bool) : ∀ (l : List α) (i : Nat) (x y : α), l[i]? = some x →
    (l.set i y).countP p + (if p x then 1 else 0) = l.countP p + (if p y then 1 else 0)
  | [], i, x, y, h => by simp at h
  | a :: l, 0, x, y, h => by
    simp at h; subst h
    simp only [List.set_cons_zero, List.countP_cons]
    omega
  | a :: l, i + 1, x, y, h => by
    have := countP_set' p l i x y (by simpa using h)
    simp only [List.set_cons_succ, List.countP_cons]
    omega

theorem sum_set' {α : Type} (f : α → Nat) : ∀ (l : List α) (i : Nat) (x y : α), l[i]? = some x →
    ((l.set i y).map f).sum + f x = (l.map f).sum + f y
  | [], i, x, y, h => by simp at h
  | a :: l, 0, x, y, h => by
    simp at h; subst h
    simp only [List.set_cons_zero, List.map_cons, List.sum_cons]
    omega
  | a :: l, i + 1, x, y, h => by
    have := sum_set' f l i x y (by simpa using h)
    simp only [List.set_cons_succ, List.map_cons, List.sum_cons]
    omega

/-! ## What a step can be -/

/-- A step that does not end the process, with what it changes. -/
inductive Live (s : St) : St → Prop where
  | start {t : Nat} {todo : List Call} (h : s.threads[t]? = some ⟨.start :: todo, .idle⟩) :
      Live s { s.put t ⟨todo, .idle⟩ with loops := s.loops ++ [.starting] }
  | call {t : Nat} {c : Call} {todo : List Call} {ph : Ph} (h : s.threads[t]? = some ⟨c :: todo, .idle⟩) (hc : c ≠ .start) :
      Live s (s.put t ⟨todo, ph⟩)
  | send {t n : Nat} {todo : List Call} (h : s.threads[t]? = some ⟨todo, .sending n⟩) (hc : s.cClosed = false) :
      Live s { s.put t ⟨todo, .idle⟩ with chan := s.chan ++ [n], sent := s.sent ++ [n] }
  | del {t : Nat} {todo : List Call} (h : s.threads[t]? = some ⟨todo, .stopDel⟩) : Live s { s.put t ⟨todo, .stopSel⟩ with producer := false }
  | move {t : Nat} {todo : List Call} {ph ph' : Ph} (h : s.threads[t]? = some ⟨todo, ph⟩) : Live s (s.put t ⟨todo, ph'⟩)
  | quit {t : Nat} {todo : List Call} (h : s.threads[t]? = some ⟨todo, .stopClose⟩) :
      Live s { s.put t ⟨todo, .stopWait⟩ with quitClosed := true }
  | begin {j : Nat} (h : s.loops[j]? = some .starting) : Live s { s.putLoop j .select with producer := true }
  | recv {j n : Nat} {q : List Nat} (h : s.loops[j]? = some .select) (hc : s.chan = n :: q) : Live s { s.putLoop j (.got n) with chan := q }
  | tick : Live s s
  | leave {j : Nat} (h : s.loops[j]? = some .select) (hq : s.quitClosed = true) : Live s (s.putLoop j .closeC)
  | handle {j n : Nat} (h : s.loops[j]? = some (.got n)) : Live s { s.putLoop j .select with log := s.log ++ [n] }
  | closeC {j : Nat} (h : s.loops[j]? = some .closeC) (hc : s.cClosed = false) : Live s { s.putLoop j .closeDone with cClosed := true }
  | closeDone {j : Nat} (h : s.loops[j]? = some .closeDone) (hc : s.doneClosed = false) :
      Live s { s.putLoop j .exited with doneClosed := true }

/-- A step that ends the process. -/
inductive Dies (s : St) : Cause → Prop where
  | sendClosed {t n : Nat} {todo : List Call} (h : s.threads[t]? = some ⟨todo, .sending n⟩) (hc : s.cClosed = true) : Dies s .sendClosed
  | closeQuit {t : Nat} {todo : List Call} (h : s.threads[t]? = some ⟨todo, .stopClose⟩) (hq : s.quitClosed = true) : Dies s .closeQuit
  | nilCmd {j : Nat} (h : s.loops[j]? = some .select) (hc : s.cClosed = true) (he : s.chan = []) : Dies s .nilCmd
  | closeC {j : Nat} (h : s.loops[j]? = some .closeC) (hc : s.cClosed = true) : Dies s .closeC
  | closeDone {j : Nat} (h : s.loops[j]? = some .closeDone) (hc : s.doneClosed = true) : Dies s .closeDone

theorem step_cases {s s' : St} {a : Act} (h : step s a = some s') :
    s.crash = none ∧ (Live s s' ∨ ∃ c, s' = { s with crash := some c } ∧ Dies s c) := by
  unfold step at h
  split at h
  · cases h
  · next hcr =>
    refine ⟨by simpa using hcr, ?_⟩
    cases a with
    | thread t =>
      simp only [threadStep] at h
      split at h
      · cases h
      · next todo ph hth =>
        cases ph with
        | idle =>
          simp only at h
          split at h
          · cases h
          · cases h; exact .inl (.start hth)
          · cases h; exact .inl (.call hth (by simp))
          · cases h; exact .inl (.call hth (by simp))
        | sending n =>
          simp only at h
          split at h
          · next hc => cases h; exact .inr ⟨_, rfl, .sendClosed hth hc⟩
          · next hc =>
            split at h
            · cases h; exact .inl (.send hth (by simpa using hc))
            · cases h
        | stopDel => cases h; exact .inl (.del hth)
        | stopSel => cases h; exact .inl (.move hth)
        | stopClose =>
          simp only at h
          split at h
          · next hc => cases h; exact .inr ⟨_, rfl, .closeQuit hth hc⟩
          · cases h; exact .inl (.quit hth)
        | stopWait =>
          simp only at h
          split at h
          · cases h; exact .inl (.move hth)
          · cases h
    | loop j c =>
      simp only [loopStep] at h
      split at h
      · next hl => cases h; exact .inl (.begin hl)
      · next hl =>
        split at h
        · next hc => cases h; exact .inl (.recv hl hc)
        · next he =>
          split at h
          · next hc => cases h; exact .inr ⟨_, rfl, .nilCmd hl hc he⟩
          · cases h
      · next hl => cases h; exact .inl .tick
      · next hl =>
        split at h
        · next hq => cases h; exact .inl (.leave hl hq)
        · cases h
      · next hl => cases h; exact .inl (.handle hl)
      · next hl =>
        split at h
        · next hc => cases h; exact .inr ⟨_, rfl, .closeC hl hc⟩
        · next hc => cases h; exact .inl (.closeC hl (by simpa using hc))
      · next hl =>
        split at h
        · next hc => cases h; exact .inr ⟨_, rfl, .closeDone hl hc⟩
        · next hc => cases h; exact .inl (.closeDone hl (by simpa using hc))
      · cases h

theorem live_crash {s s' : St} (h : Live s s') : s'.crash = s.crash := by cases h <;> rfl

/-! ## The invariant -/

/-- The loops that have closed `w.c` are those at `close(w.done)` and those that have ended, and they are as many as the closings that
the channels allow. -/
structure Inv (k : Nat) (s : St) : Prop where
  c : s.loops.countP (· = .closeDone) + ended s = s.cClosed.toNat
  d : ended s = s.doneClosed.toNat
  q : (∃ l ∈ s.loops, l = .closeC ∨ l = .closeDone ∨ l = .exited) → s.quitClosed = true
  n : s.loops.length + startsLeft s = k
  count : ∀ x, s.log.count x + s.loops.countP (· = .got x) + s.chan.count x = s.sent.count x
  order : s.loops.length ≤ 1 → s.log ++ s.loops.flatMap inHand ++ s.chan = s.sent

theorem inv_init (cap : Nat) (progs : List (List Call)) : Inv (starts progs) (init cap progs) where
  c := rfl
  d := rfl
  q := by simp [init]
  n := by simp [init, startsLeft, starts, Function.comp_def]
  count := by simp [init]
  order := by simp [init]

theorem mem_set' {α : Type} {l : List α} {i : Nat} {y x : α} (h : x ∈ l.set i y) : x ∈ l ∨ x = y := by
  exact List.mem_or_eq_of_mem_set h

theorem one_loop {l : List LP} {j : Nat} {x : LP} (h : l[j]? = some x) (hl : l.length ≤ 1) : l = [x] ∧ j = 0 := by
  match l, j with
  | [], j => simp at h
  | [a], 0 => simp at h; simp [h]
  | [a], j + 1 => simp at h
  | a :: b :: l, j => simp at hl

/-- Only threads change, and `Start` is not called. -/
theorem inv_thread {k : Nat} {s s' : St} (i : Inv k s) {t : Nat} {x y : Th} (h : s.threads[t]? = some x)
    (ht : s'.threads = s.threads.set t y) (hxy : startsIn y.todo = startsIn x.todo) (hl : s'.loops = s.loops)
    (hc : s'.cClosed = s.cClosed) (hd : s'.doneClosed = s.doneClosed) (hq : s.quitClosed = true → s'.quitClosed = true)
    (hlog : s'.log = s.log) (e : List Nat) (hch : s'.chan = s.chan ++ e) (hse : s'.sent = s.sent ++ e) : Inv k s' where
  c := by simp only [ended, hl, hc]; exact i.c
  d := by simp only [ended, hl, hd]; exact i.d
  q := by rw [hl]; exact fun hh => hq (i.q hh)
  n := by
    have := sum_set' (fun th : Th => startsIn th.todo) s.threads t x y h
    have := i.n
    simp only [startsLeft, hl, ht] at *
    omega
  count := fun z => by
    have := i.count z
    simp only [hl, hlog, hch, hse, List.count_append]
    omega
  order := fun hh => by
    rw [hl] at hh
    simp only [hl, hlog, hch, hse]
    rw [← List.append_assoc, i.order hh]

/-- Only one loop moves. -/
theorem inv_loop {k : Nat} {s s' : St} (i : Inv k s) {j : Nat} {x y : LP} (h : s.loops[j]? = some x)
    (hl : s'.loops = s.loops.set j y) (ht : s'.threads = s.threads) (hq : s'.quitClosed = s.quitClosed)
    (hy : y = .closeC ∨ y = .closeDone ∨ y = .exited → s.quitClosed = true)
    (hc : (s.loops.set j y).countP (· = .closeDone) + (s.loops.set j y).countP (· = .exited) = s'.cClosed.toNat)
    (hd : (s.loops.set j y).countP (· = .exited) = s'.doneClosed.toNat)
    (hn : ∀ z, s'.log.count z + (s.loops.set j y).countP (· = .got z) + s'.chan.count z =
      s.log.count z + s.loops.countP (· = .got z) + s.chan.count z)
    (hse : s'.sent = s.sent) (ho : s'.log ++ inHand y ++ s'.chan = s.log ++ inHand x ++ s.chan) : Inv k s' where
  c := by simp only [ended, hl]; exact hc
  d := by simp only [ended, hl]; exact hd
  q := by
    rw [hl, hq]
    rintro ⟨l, hm, hh⟩
    rcases mem_set' hm with hm | hm
    · exact i.q ⟨l, hm, hh⟩
    · subst hm; exact hy hh
  n := by
    have := i.n
    simp only [startsLeft, hl, ht, List.length_set] at *
    exact this
  count := fun z => by rw [hl, hse, hn z]; exact i.count z
  order := fun hh => by
    rw [hl, List.length_set] at hh
    obtain ⟨e, rfl⟩ := one_loop h hh
    have := i.order hh
    rw [e] at this
    rw [hl, e, hse, ← this]
    simpa using ho

theorem inv_live {k : Nat} {s s' : St} (i : Inv k s) (h : Live s s') : Inv k s' := by
  have cs := fun (p : LP → Bool) j x y h => countP_set' p s.loops j x y h
  cases h with
  | start h =>
    refine ⟨?_, ?_, ?_, ?_, ?_, ?_⟩
    · have := i.c; simpa [ended, St.put] using this
    · have := i.d; simpa [ended, St.put] using this
    · rintro ⟨l, hm, hh⟩
      rcases List.mem_append.mp hm with hm | hm
      · exact i.q ⟨l, hm, hh⟩
      · simp at hm; subst hm; simp at hh
    · rename_i t todo
      have := sum_set' (fun th : Th => startsIn th.todo) s.threads t _ ⟨todo, .idle⟩ h
      have := i.n
      simp [startsLeft, St.put, startsIn] at *
      omega
    · intro z; have := i.count z; simpa [St.put] using this
    · intro hh
      have hl : s.loops = [] := by
        simp [St.put] at hh; exact hh
      have := i.order (by rw [hl]; simp)
      simpa [St.put, hl, inHand] using this
  | call h hc =>
    rename_i c _ _
    refine inv_thread i h rfl ?_ rfl rfl rfl id rfl [] (by simp [St.put]) (by simp [St.put])
    cases c <;> simp_all [startsIn]
  | send h hc => exact inv_thread i h rfl rfl rfl rfl rfl id rfl _ rfl rfl
  | del h => exact inv_thread i h rfl rfl rfl rfl rfl id rfl [] (by simp [St.put]) (by simp [St.put])
  | move h => exact inv_thread i h rfl rfl rfl rfl rfl id rfl [] (by simp [St.put]) (by simp [St.put])
  | quit h => exact inv_thread i h rfl rfl rfl rfl rfl (fun _ => rfl) rfl [] (by simp [St.put]) (by simp [St.put])
  | tick => exact i
  | begin h =>
    have hc := i.c; have hd := i.d
    have c1 := cs (· = .closeDone) _ _ .select h
    have c2 := cs (· = .exited) _ _ .select h
    simp [ended] at c1 c2 hc hd
    refine inv_loop i h rfl rfl rfl (by simp) ?_ ?_ (fun z => ?_) rfl (by simp [inHand, St.putLoop])
    · simp [St.putLoop]; omega
    · simp [St.putLoop]; omega
    · have c3 := cs (· = .got z) _ _ .select h
      simp at c3; simp [St.putLoop]; omega
  | recv h hcn =>
    rename_i n q
    have hc := i.c; have hd := i.d
    have c1 := cs (· = .closeDone) _ _ (.got n) h
    have c2 := cs (· = .exited) _ _ (.got n) h
    simp [ended] at c1 c2 hc hd
    refine inv_loop i h rfl rfl rfl (by simp) ?_ ?_ (fun z => ?_) rfl (by simp [inHand, St.putLoop, hcn])
    · simp [St.putLoop]; omega
    · simp [St.putLoop]; omega
    · have c3 := cs (· = .got z) _ _ (.got n) h
      simp at c3
      simp only [St.putLoop, hcn, List.count_cons]
      by_cases hz : n = z <;> simp [hz] at c3 ⊢ <;> omega
  | leave h hq =>
    have hc := i.c; have hd := i.d
    have c1 := cs (· = .closeDone) _ _ .closeC h
    have c2 := cs (· = .exited) _ _ .closeC h
    simp [ended] at c1 c2 hc hd
    refine inv_loop i h rfl rfl rfl (fun _ => hq) ?_ ?_ (fun z => ?_) rfl (by simp [inHand, St.putLoop])
    · simp [St.putLoop]; omega
    · simp [St.putLoop]; omega
    · have c3 := cs (· = .got z) _ _ .closeC h
      simp at c3; simp [St.putLoop]; omega
  | handle h =>
    rename_i n
    have hc := i.c; have hd := i.d
    have c1 := cs (· = .closeDone) _ _ .select h
    have c2 := cs (· = .exited) _ _ .select h
    simp [ended] at c1 c2 hc hd
    refine inv_loop i h rfl rfl rfl (by simp) ?_ ?_ (fun z => ?_) rfl (by simp [inHand, St.putLoop])
    · simp [St.putLoop]; omega
    · simp [St.putLoop]; omega
    · have c3 := cs (· = .got z) _ _ .select h
      simp at c3
      simp only [St.putLoop, List.count_append, List.count_cons, List.count_nil]
      by_cases hz : n = z <;> simp [hz] at c3 ⊢ <;> omega
  | closeC h hcl =>
    have hc := i.c; have hd := i.d
    have c1 := cs (· = .closeDone) _ _ .closeDone h
    have c2 := cs (· = .exited) _ _ .closeDone h
    simp at c1 c2
    simp only [ended, hcl, Bool.toNat_false] at hc hd
    refine inv_loop i h rfl rfl rfl (fun _ => i.q ⟨_, List.mem_of_getElem? h, .inl rfl⟩) ?_ ?_ (fun z => ?_) rfl (by simp [inHand, St.putLoop])
    · simp; omega
    · simp [St.putLoop]; omega
    · have c3 := cs (· = .got z) _ _ .closeDone h
      simp at c3; simp [St.putLoop]; omega
  | closeDone h hcl =>
    have hc := i.c; have hd := i.d
    have c1 := cs (· = .closeDone) _ _ .exited h
    have c2 := cs (· = .exited) _ _ .exited h
    simp at c1 c2
    simp only [ended, hcl, Bool.toNat_false] at hc hd
    refine inv_loop i h rfl rfl rfl (fun _ => i.q ⟨_, List.mem_of_getElem? h, .inr (.inl rfl)⟩) ?_ ?_ (fun z => ?_) rfl
      (by simp [inHand, St.putLoop])
    · simp [St.putLoop]; omega
    · simp; omega
    · have c3 := cs (· = .got z) _ _ .exited h
      simp at c3; simp [St.putLoop]; omega

/-- The state before the end of the process, too, meets the invariant. -/
theorem inv_exec {k : Nat} : ∀ (as : List Act) {s s' : St}, Inv k s → exec s as = some s' →
    Inv k s' ∧ ∀ c, s'.crash = some c → s.crash = some c ∨ Dies s' c
  | [], s, s', i, h => by cases h; exact ⟨i, fun c hc => .inl hc⟩
  | a :: as, s, s', i, h => by
    obtain ⟨s1, h1, h2⟩ := Option.bind_eq_some_iff.mp h
    obtain ⟨hn, hs⟩ := step_cases h1
    rcases hs with hl | ⟨c, rfl, hd⟩
    · obtain ⟨i', hx⟩ := inv_exec as (inv_live i hl) h2
      exact ⟨i', fun c hc => by
        rcases hx c hc with hx | hx
        · rw [live_crash hl] at hx; exact .inl hx
        · exact .inr hx⟩
    · cases as with
      | cons b bs => simp [exec, step] at h2
      | nil =>
        cases h2
        refine ⟨⟨i.c, i.d, i.q, i.n, i.count, i.order⟩, fun c' hc => .inr ?_⟩
        simp at hc; subst hc
        cases hd with
        | sendClosed g1 g2 => exact .sendClosed (s := { s with crash := _ }) g1 g2
        | closeQuit g1 g2 => exact .closeQuit (s := { s with crash := _ }) g1 g2
        | nilCmd g1 g2 g3 => exact .nilCmd (s := { s with crash := _ }) g1 g2 g3
        | closeC g1 g2 => exact .closeC (s := { s with crash := _ }) g1 g2
        | closeDone g1 g2 => exact .closeDone (s := { s with crash := _ }) g1 g2

theorem reach_inv {cap : Nat} {progs : List (List Call)} {s : St} (h : Reach cap progs s) :
    Inv (starts progs) s ∧ ∀ c, s.crash = some c → Dies s c := by
  obtain ⟨as, h⟩ := h
  obtain ⟨i, hx⟩ := inv_exec as (inv_init cap progs) h
  exact ⟨i, fun c hc => (hx c hc).resolve_left (by simp [init])⟩

/-! ## The claims -/

theorem countP_pos_of {p : LP → Bool} {l : List LP} {j : Nat} {x : LP} (h : l[j]? = some x) (hp : p x = true) : 0 < l.countP p :=
  List.countP_pos_iff.mpr ⟨x, List.mem_of_getElem? h, hp⟩

/-- **C114.** However often `Start` and `Stop` are called: at most one loop of the meter has ended, and if one has, `Stop` was called;
`w.done` is never closed twice. -/
theorem one_ends {cap : Nat} {progs : List (List Call)} {s : St} (h : Reach cap progs s) :
    ended s ≤ 1 ∧ (ended s = 1 → s.quitClosed = true ∧ s.doneClosed = true ∧ s.cClosed = true) ∧ s.crash ≠ some .closeDone := by
  obtain ⟨i, hx⟩ := reach_inv h
  have hc := i.c; have hd := i.d
  refine ⟨?_, ?_, ?_⟩
  · rw [hd]; exact Bool.toNat_le _
  · intro he
    refine ⟨?_, ?_, ?_⟩
    · have : 0 < s.loops.countP (· = .exited) := by unfold ended at he; omega
      obtain ⟨l, hm, hp⟩ := List.countP_pos_iff.mp this
      exact i.q ⟨l, hm, .inr (.inr (by simpa using hp))⟩
    · rw [he] at hd; cases hh : s.doneClosed
      · simp [hh] at hd
      · rfl
    · cases hh : s.cClosed
      · simp [hh] at hc; omega
      · rfl
  · intro hcr
    cases hx _ hcr with
    | closeDone hl hdc =>
      have h1 := countP_pos_of (p := (· = .closeDone)) hl (by simp)
      rw [hdc] at hd
      rw [hd] at hc
      have := Bool.toNat_le s.cClosed
      simp at hc
      omega

/-- **C114.** When one loop has ended, a loop that waits at its select (one more `Start` before the `Stop`, or one after it) can take what is
left in the channel and ticks; every other thing it can do ends the process, and when the channel is empty such a thing can always be
done. -/
theorem others_end_process {cap : Nat} {progs : List (List Call)} {s : St} (h : Reach cap progs s) (hcr : s.crash = none)
    (he : ended s = 1) {j : Nat} (hj : s.loops[j]? = some .select) :
    (s.chan = [] → ∃ s', step s (.loop j .recv) = some s' ∧ s'.crash = some .nilCmd) ∧
    (∃ s', exec s [.loop j .quit, .loop j .go] = some s' ∧ s'.crash = some .closeC) := by
  obtain ⟨_, h2, _⟩ := one_ends h
  obtain ⟨hq, _, hc⟩ := h2 he
  constructor
  · intro hch
    exact ⟨{ s with crash := some .nilCmd }, by simp [step, hcr, loopStep, hj, hch, hc], rfl⟩
  · have hlt : j < s.loops.length := (List.getElem?_eq_some_iff.mp hj).1
    refine ⟨{ s.putLoop j .closeC with crash := some .closeC }, ?_, rfl⟩
    have e1 : step s (.loop j .quit) = some (s.putLoop j .closeC) := by simp only [step, hcr, loopStep, hj, hq]; rfl
    have g : (s.putLoop j .closeC).loops[j]? = some .closeC := List.getElem?_set_self hlt
    have e2 : step (s.putLoop j .closeC) (.loop j .go) = some { s.putLoop j .closeC with crash := some .closeC } := by
      simp only [step, loopStep, g]
      simp [St.putLoop, hcr, hc]
    simp only [exec, e1, e2, Option.bind_some]

/-- **C114.** A process in which `Start` has been called more than once does not come to rest after `Stop` has closed `w.quit`: as long as it
lives some loop can go on (without a tick), and no second one can end. -/
theorem no_rest {cap : Nat} {progs : List (List Call)} {s : St} (h : Reach cap progs s) (hcr : s.crash = none) (hq : s.quitClosed = true)
    (h2 : 2 ≤ s.loops.length) : ∃ j c s', c ≠ .tick ∧ step s (.loop j c) = some s' := by
  have hne : ∃ l ∈ s.loops, l ≠ .exited := by
    refine Classical.byContradiction fun hn => ?_
    have hall : ∀ l ∈ s.loops, decide (l = LP.exited) = true := by
      intro l hl
      exact decide_eq_true (Classical.byContradiction fun hh => hn ⟨l, hl, hh⟩)
    have := (one_ends h).1
    unfold ended at this
    rw [List.countP_eq_length.mpr hall] at this
    omega
  obtain ⟨l, hm, hl⟩ := hne
  obtain ⟨j, hj⟩ := List.mem_iff_getElem?.mp hm
  cases l with
  | starting => exact ⟨j, .go, _, by simp, by simp only [step, hcr, loopStep, hj]; rfl⟩
  | select => exact ⟨j, .quit, _, by simp, by simp only [step, hcr, loopStep, hj, hq]; rfl⟩
  | got n => exact ⟨j, .go, _, by simp, by simp only [step, hcr, loopStep, hj]; rfl⟩
  | closeC =>
    cases hc : s.cClosed
    · exact ⟨j, .go, _, by simp, by simp only [step, hcr, loopStep, hj, hc]; rfl⟩
    · exact ⟨j, .go, _, by simp, by simp only [step, hcr, loopStep, hj, hc]; rfl⟩
  | closeDone =>
    cases hc : s.doneClosed
    · exact ⟨j, .go, _, by simp, by simp only [step, hcr, loopStep, hj, hc]; rfl⟩
    · exact ⟨j, .go, _, by simp, by simp only [step, hcr, loopStep, hj, hc]; rfl⟩
  | exited => exact absurd rfl hl

/-- **C114.** With at most one `Start` no loop ends the process: it ends only by a recording after the loop has ended, or by `Stop` called
twice at once. -/
theorem loop_safe_partial {cap : Nat} {progs : List (List Call)} {s : St} (h : Reach cap progs s) (h1 : starts progs ≤ 1) {c : Cause}
    (hc : s.crash = some c) : c = .sendClosed ∨ c = .closeQuit := by
  obtain ⟨i, hx⟩ := reach_inv h
  have hlen : s.loops.length ≤ 1 := by have := i.n; omega
  have hcc := i.c
  cases hx c hc with
  | sendClosed => exact .inl rfl
  | closeQuit => exact .inr rfl
  | nilCmd hl hcl =>
    obtain ⟨e, _⟩ := one_loop hl hlen
    simp [ended, e, hcl] at hcc
  | closeC hl hcl =>
    obtain ⟨e, _⟩ := one_loop hl hlen
    simp [ended, e, hcl] at hcc
  | closeDone hl hcl => exact absurd hc (one_ends h).2.2

/-- **C114.** With any number of loops each recording that was sent is handled, being handled or in the channel, and only once. -/
theorem none_lost {cap : Nat} {progs : List (List Call)} {s : St} (h : Reach cap progs s) (x : Nat) :
    s.log.count x + s.loops.countP (· = .got x) + s.chan.count x = s.sent.count x := (reach_inv h).1.count x

/-- How often a goroutine has still to send a recording. -/
def owed (x : Nat) (th : Th) : Nat := th.todo.count (.record x) + (decide (th.ph = .sending x)).toNat

theorem owed_step {s s' : St} {a : Act} (h : step s a = some s') (x : Nat) :
    (s'.threads.map (owed x)).sum + s'.sent.count x = (s.threads.map (owed x)).sum + s.sent.count x := by
  unfold step at h
  split at h
  · cases h
  · cases a with
    | loop j c =>
      simp only [loopStep] at h
      split at h
      · cases h; rfl
      · split at h
        · cases h; rfl
        · split at h
          · cases h; rfl
          · cases h
      · cases h; rfl
      · split at h
        · cases h; rfl
        · cases h
      · cases h; rfl
      · split at h <;> (cases h; rfl)
      · split at h <;> (cases h; rfl)
      · cases h
    | thread t =>
      simp only [threadStep] at h
      cases hth : s.threads[t]? with
      | none => simp [hth] at h
      | some th =>
        obtain ⟨todo, ph⟩ := th
        have key := fun y => sum_set' (owed x) s.threads t _ y hth
        simp only [hth] at h
        cases ph with
        | idle =>
          cases todo with
          | nil => cases h
          | cons c todo =>
            cases c with
            | start => cases h; have := key ⟨todo, .idle⟩; simp [owed, St.put] at this ⊢; omega
            | stop => cases h; have := key ⟨todo, .stopDel⟩; simp [owed, St.put] at this ⊢; omega
            | record n =>
              cases h
              have := key ⟨todo, .sending n⟩
              by_cases hn : n = x
              · subst hn; simp [owed, St.put] at this ⊢; omega
              · simp [owed, St.put, hn] at this ⊢; omega
        | sending n =>
          simp only at h
          split at h
          · cases h; rfl
          · split at h
            · cases h
              have := key ⟨todo, .idle⟩
              by_cases hn : n = x
              · subst hn; simp [owed, St.put] at this ⊢; omega
              · simp [owed, St.put, hn] at this ⊢; omega
            · cases h
        | stopDel => cases h; have := key ⟨todo, .stopSel⟩; simp [owed, St.put] at this ⊢; omega
        | stopSel =>
          cases h
          have := key ⟨todo, if s.quitClosed then .stopWait else .stopClose⟩
          cases hq : s.quitClosed <;> simp [owed, St.put, hq] at this ⊢ <;> omega
        | stopClose =>
          simp only at h
          split at h
          · cases h; rfl
          · cases h; have := key ⟨todo, .stopWait⟩; simp [owed, St.put] at this ⊢; omega
        | stopWait =>
          simp only at h
          split at h
          · cases h; have := key ⟨todo, .idle⟩; simp [owed, St.put] at this ⊢; omega
          · cases h

/-- **C114.** … and every recording of the programs has been sent, once, or is still to be sent. -/
theorem all_sent {cap : Nat} {progs : List (List Call)} {s : St} (h : Reach cap progs s) (x : Nat) :
    (s.threads.map (owed x)).sum + s.sent.count x = (progs.map (·.count (.record x))).sum := by
  obtain ⟨as, h⟩ := h
  have key : ∀ (as : List Act) (s s' : St), exec s as = some s' →
      (s'.threads.map (owed x)).sum + s'.sent.count x = (s.threads.map (owed x)).sum + s.sent.count x := by
    intro as
    induction as with
    | nil => intro s s' h; cases h; rfl
    | cons a as ih =>
      intro s s' h
      simp only [exec] at h
      cases hs : step s a with
      | none => rw [hs] at h; cases h
      | some s1 => rw [hs] at h; rw [ih s1 s' h, owed_step hs x]
  rw [key as _ _ h]
  simp [init, owed, Function.comp_def]

/-- **C114.** With at most one `Start` recordings are handled in the order in which they were sent. -/
theorem in_order_partial {cap : Nat} {progs : List (List Call)} {s : St} (h : Reach cap progs s) (h1 : starts progs ≤ 1) :
    ∃ rest, s.log ++ rest = s.sent := by
  obtain ⟨i, _⟩ := reach_inv h
  have := i.order (by have := i.n; omega)
  exact ⟨s.loops.flatMap inHand ++ s.chan, by rw [← List.append_assoc]; exact this⟩

/-- No loop is on its way to become a producer, and `Start` is not called any more. -/
def Settled (s : St) : Prop := LP.starting ∉ s.loops ∧ startsLeft s = 0

theorem settled_live {s s' : St} (hs : Settled s) (hp : s.producer = false) (h : Live s s') : Settled s' ∧ s'.producer = false := by
  have lp : ∀ {j : Nat} {y : LP}, y ≠ .starting → LP.starting ∉ s.loops.set j y := by
    intro j y hy hm
    rcases mem_set' hm with hm | hm
    · exact hs.1 hm
    · exact hy hm.symm
  have th : ∀ {t : Nat} {x y : Th}, s.threads[t]? = some x → startsIn y.todo ≤ startsIn x.todo →
      ((s.threads.set t y).map fun th => startsIn th.todo).sum = 0 := by
    intro t x y hx hle
    have := sum_set' (fun th : Th => startsIn th.todo) s.threads t x y hx
    have := hs.2
    simp only [startsLeft] at this
    omega
  cases h with
  | start h =>
    rename_i t todo
    have := sum_set' (fun th : Th => startsIn th.todo) s.threads t _ ⟨todo, .idle⟩ h
    have h2 := hs.2
    have h3 : startsIn (.start :: todo) = startsIn todo + 1 := by simp [startsIn]
    simp only [startsLeft] at this h2
    omega
  | call h hc =>
    rename_i c todo _
    exact ⟨⟨hs.1, th h (by simp only [startsIn, List.countP_cons]; omega)⟩, hp⟩
  | send h hc => exact ⟨⟨hs.1, th h (Nat.le_refl _)⟩, hp⟩
  | del h => exact ⟨⟨hs.1, th h (Nat.le_refl _)⟩, rfl⟩
  | move h => exact ⟨⟨hs.1, th h (Nat.le_refl _)⟩, hp⟩
  | quit h => exact ⟨⟨hs.1, th h (Nat.le_refl _)⟩, hp⟩
  | begin h => exact absurd (List.mem_of_getElem? h) hs.1
  | recv h hcn => exact ⟨⟨lp (by simp), hs.2⟩, hp⟩
  | tick => exact ⟨hs, hp⟩
  | leave h hq => exact ⟨⟨lp (by simp), hs.2⟩, hp⟩
  | handle h => exact ⟨⟨lp (by simp), hs.2⟩, hp⟩
  | closeC h hc => exact ⟨⟨lp (by simp), hs.2⟩, hp⟩
  | closeDone h hc => exact ⟨⟨lp (by simp), hs.2⟩, hp⟩

/-- **C114.** `Stop` takes the meter off the producers for good, if all its loops have begun and `Start` is not called again. -/
theorem not_producer_partial {s s1 s2 : St} {t : Nat} {todo : List Call} (hs : Settled s) (ht : s.threads[t]? = some ⟨todo, .stopDel⟩)
    (h1 : step s (.thread t) = some s1) {as : List Act} (h2 : exec s1 as = some s2) : s2.producer = false := by
  have key : ∀ (as : List Act) {s1 s2 : St}, Settled s1 → s1.producer = false → exec s1 as = some s2 → s2.producer = false := by
    intro as
    induction as with
    | nil => intro s1 s2 _ hp h; cases h; exact hp
    | cons a as ih =>
      intro s1 s2 hs hp h
      obtain ⟨s3, h3, h4⟩ := Option.bind_eq_some_iff.mp h
      rcases (step_cases h3).2 with hl | ⟨c, rfl, _⟩
      · obtain ⟨a1, a2⟩ := settled_live hs hp hl
        exact ih a1 a2 h4
      · exact ih (s1 := { s1 with crash := some c }) hs hp h4
  have hcr := (step_cases h1).1
  have e1 : s1 = { s.put t ⟨todo, .stopSel⟩ with producer := false } := by
    simp [step, hcr, threadStep, ht] at h1; exact h1.symm
  subst e1
  have hset : Settled { s.put t ⟨todo, .stopSel⟩ with producer := false } := by
    refine ⟨hs.1, ?_⟩
    have := sum_set' (fun th : Th => startsIn th.todo) s.threads t _ ⟨todo, .stopSel⟩ ht
    have h0 := hs.2
    simp only [startsLeft, St.put] at *
    omega
  exact key as hset rfl h2

/-! ## Witnesses -/

/-- `Start` twice, then `Stop`: after `Stop` has returned the second loop ends the process. -/
def twice : List Act := [.thread 0, .thread 0, .loop 0 .go, .loop 1 .go, .thread 0, .thread 0, .thread 0, .thread 0,
  .loop 0 .quit, .loop 0 .go, .loop 0 .go, .thread 0]

theorem twice_crashes : ∃ s s1 s2, exec (init 1024 [[.start, .start, .stop]]) twice = some s ∧ s.crash = none ∧
    s.threads = [⟨[], .idle⟩] ∧ s.loops = [.exited, .select] ∧
    exec s [.loop 1 .recv] = some s1 ∧ s1.crash = some .nilCmd ∧
    exec s [.loop 1 .quit, .loop 1 .go] = some s2 ∧ s2.crash = some .closeC :=
  ⟨_, _, _, rfl, rfl, rfl, rfl, rfl, rfl, rfl, rfl⟩

/-- `Start`, `Stop`, `Start`: the new loop ends the process. -/
theorem restart_crashes : ∃ s s1 s2, exec (init 1024 [[.start, .stop, .start]]) [.thread 0, .loop 0 .go, .thread 0, .thread 0, .thread 0,
      .thread 0, .loop 0 .quit, .loop 0 .go, .loop 0 .go, .thread 0, .thread 0, .loop 1 .go] = some s ∧ s.crash = none ∧
    s.loops = [.exited, .select] ∧ s.producer = true ∧
    exec s [.loop 1 .recv] = some s1 ∧ s1.crash = some .nilCmd ∧
    exec s [.loop 1 .quit, .loop 1 .go] = some s2 ∧ s2.crash = some .closeC :=
  ⟨_, _, _, rfl, rfl, rfl, rfl, rfl, rfl, rfl, rfl⟩

/-- With two loops two recordings of one goroutine are handled in the other order. -/
theorem two_loops_swap : ∃ s, exec (init 1024 [[.start, .start, .record 1, .record 2]]) [.thread 0, .thread 0, .loop 0 .go, .loop 1 .go,
      .thread 0, .thread 0, .thread 0, .thread 0, .loop 0 .recv, .loop 1 .recv, .loop 1 .go, .loop 0 .go] = some s ∧
    s.sent = [1, 2] ∧ s.log = [2, 1] ∧ s.crash = none := ⟨_, rfl, rfl, rfl, rfl⟩

/-! ## The hypotheses can be met -/

example : ∃ s, Reach 1024 [[.start, .start, .stop]] s ∧ s.crash = none ∧ s.quitClosed = true ∧ 2 ≤ s.loops.length ∧ ended s = 1 ∧ s.loops[1]? = some .select ∧ s.chan = [] :=
  ⟨_, ⟨twice, rfl⟩, rfl, rfl, by decide, rfl, rfl, rfl⟩
example : ∃ s, Reach 4 [[.start, .stop, .record 3]] s ∧ starts [[.start, .stop, .record 3]] ≤ 1 ∧ s.crash = some .sendClosed :=
  ⟨_, ⟨[.thread 0, .loop 0 .go, .thread 0, .thread 0, .thread 0, .thread 0, .loop 0 .quit, .loop 0 .go, .loop 0 .go, .thread 0, .thread 0,
    .thread 0], rfl⟩, by decide, rfl⟩
example : ∃ s, Reach 4 [[.start, .record 1, .record 2]] s ∧ s.log = [1] ∧ s.sent = [1, 2] :=
  ⟨_, ⟨[.thread 0, .loop 0 .go, .thread 0, .thread 0, .thread 0, .thread 0, .loop 0 .recv, .loop 0 .go], rfl⟩, rfl, rfl⟩
example : ∃ s s1, exec (init 4 [[.start, .stop]]) [.thread 0, .loop 0 .go, .thread 0] = some s ∧ Settled s ∧
    s.threads[0]? = some ⟨[], .stopDel⟩ ∧ s.producer = true ∧ step s (.thread 0) = some s1 :=
  ⟨_, _, rfl, by unfold Settled; decide, rfl, rfl, rfl⟩

end Verif.Props.Loops
