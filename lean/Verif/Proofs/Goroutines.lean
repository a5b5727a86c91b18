import Verif.Spec.Goroutines
import Verif.Proofs.Slice
import Verif.Proofs.HeapAny
/-! # Lemmas for C174: interleavings of programs with disjoint footprints -/
namespace Stl4go
variable {T α β : Type}

/-! ## The monad -/

@[simp] theorem Thread.bind_eq (x : Thread T α) (f : α → Thread T β) : x >>= f = x.bind f := rfl
@[simp] theorem Thread.pure_eq (a : α) : (pure a : Thread T α) = .ret a := rfl

theorem Thread.run_ret (a : α) : (Thread.ret a : Thread T α).run = pure a := rfl
theorem Thread.run_panic : (Thread.panic : Thread T α).run = GoM.panic := rfl
theorem Thread.run_diverge : (Thread.diverge : Thread T α).run = GoM.diverge := rfl

theorem Thread.run_bind (x : Thread T α) (f : α → Thread T β) : (x.bind f).run = x.run >>= fun a => (f a).run := by
  funext m
  induction x generalizing m with
  | ret a => rfl
  | panic => rfl
  | diverge => rfl
  | load p k ih => exact ih (m.cell p) m
  | store p v k ih => exact ih (m.write p [v])

/-! ## Footprints -/

/-- Reads only cells of `R`, writes only cells of `W`, whatever it finds there. -/
def Thread.Within (R W : Nat → Prop) : Thread T α → Prop
  | .load p k => R p ∧ ∀ v, (k v).Within R W
  | .store p _ k => W p ∧ k.Within R W
  | _ => True

theorem Thread.Within.bind {R W : Nat → Prop} {x : Thread T α} {f : α → Thread T β} (hx : x.Within R W) (hf : ∀ a, (f a).Within R W) :
    (x.bind f).Within R W := by
  induction x with
  | ret a => exact hf a
  | panic => trivial
  | diverge => trivial
  | load p k ih => exact ⟨hx.1, fun v => ih v (hx.2 v)⟩
  | store p v k ih => exact ⟨hx.1, ih hx.2⟩

/-! ## Alone -/

/-- `n` accesses of a goroutine on its own. -/
def Thread.alone : Nat → Thread T α → Mem T → Thread T α × Mem T
  | 0, x, m => (x, m)
  | n + 1, x, m => (x.step m).1.alone n (x.step m).2

theorem Thread.Within.step {R W : Nat → Prop} {x : Thread T α} (h : x.Within R W) (m : Mem T) : (x.step m).1.Within R W := by
  cases x with
  | load p k => exact h.2 _
  | store p v k => exact h.2
  | ret a => trivial
  | panic => trivial
  | diverge => trivial

/-- A step looks at cells of `R` only and leaves cells outside of `W`. -/
theorem Thread.Within.step_agree {R W : Nat → Prop} {x : Thread T α} (h : x.Within R W) {m m' : Mem T} {C : Nat → Prop} (hC : ∀ p, R p → C p)
    (e : ∀ p, C p → m'.cell p = m.cell p) : (x.step m').1 = (x.step m).1 ∧ ∀ p, C p → (x.step m').2.cell p = (x.step m).2.cell p := by
  cases x with
  | load p k => exact ⟨by show k _ = k _; rw [e p (hC p h.1)], e⟩
  | store p v k =>
    refine ⟨rfl, fun q hq => ?_⟩
    show (m'.write p [v]).cell q = (m.write p [v]).cell q
    rw [Mem.cell_write_one, Mem.cell_write_one, e q hq]
  | ret a => exact ⟨rfl, e⟩
  | panic => exact ⟨rfl, e⟩
  | diverge => exact ⟨rfl, e⟩

theorem Thread.Within.step_spares {R W : Nat → Prop} {x : Thread T α} (h : x.Within R W) (m : Mem T) {p : Nat} (hp : ¬ W p) :
    (x.step m).2.cell p = m.cell p := by
  cases x with
  | store q v k =>
    show (m.write q [v]).cell p = m.cell p
    rw [Mem.cell_write_one, if_neg (fun e : p = q => hp (by rw [e]; exact h.1))]
  | load q k => rfl
  | ret a => rfl
  | panic => rfl
  | diverge => rfl

theorem Thread.step_top (x : Thread T α) (m : Mem T) : (x.step m).2.top = m.top := by cases x <;> rfl

theorem Thread.Within.alone_agree {R W : Nat → Prop} (n : Nat) {x : Thread T α} (h : x.Within R W) {m m' : Mem T} {C : Nat → Prop} (hC : ∀ p, R p → C p)
    (e : ∀ p, C p → m'.cell p = m.cell p) : (x.alone n m').1 = (x.alone n m).1 ∧ ∀ p, C p → (x.alone n m').2.cell p = (x.alone n m).2.cell p := by
  induction n generalizing x m m' with
  | zero => exact ⟨rfl, e⟩
  | succ n ih =>
    obtain ⟨e1, e2⟩ := h.step_agree hC e
    show ((x.step m').1.alone n (x.step m').2).1 = ((x.step m).1.alone n (x.step m).2).1 ∧ ∀ p, C p →
      ((x.step m').1.alone n (x.step m').2).2.cell p = ((x.step m).1.alone n (x.step m).2).2.cell p
    rw [e1]
    exact ih (h.step m) e2

theorem Thread.Within.alone_spares {R W : Nat → Prop} (n : Nat) {x : Thread T α} (h : x.Within R W) (m : Mem T) {p : Nat} (hp : ¬ W p) :
    (x.alone n m).2.cell p = m.cell p := by
  induction n generalizing x m with
  | zero => rfl
  | succ n ih => exact (ih (h.step m) _).trans (h.step_spares m hp)

theorem Thread.alone_ended (n : Nat) {x : Thread T α} {o : Outcome α} (h : x.ended = some o) (m : Mem T) : x.alone n m = (x, m) := by
  have hs : x.step m = (x, m) := by cases x <;> first | rfl | exact nomatch h
  induction n with
  | zero => rfl
  | succ n ih => show (x.step m).1.alone n (x.step m).2 = _; rw [hs]; exact ih

/-- On its own a goroutine ends after `steps` accesses, as the call does. -/
theorem Thread.alone_run (x : Thread T α) (m : Mem T) (n : Nat) (hn : x.steps m ≤ n) :
    (x.alone n m).1.ended = some (x.run m).outcome ∧ ∀ m', (∃ a, x.run m = .ok a m') ∨ x.run m = .panic m' → (x.alone n m).2 = m' := by
  induction x generalizing m n with
  | ret a =>
    rw [Thread.alone_ended n (o := .ret a) rfl]
    exact ⟨rfl, fun m' h => by
      rcases h with ⟨b, e⟩ | e
      · exact (Res.ok.inj e).2
      · exact nomatch e⟩
  | panic =>
    rw [Thread.alone_ended n (o := .panic) rfl]
    exact ⟨rfl, fun m' h => by
      rcases h with ⟨b, e⟩ | e
      · exact nomatch e
      · exact Res.panic.inj e⟩
  | diverge =>
    rw [Thread.alone_ended n (o := .diverge) rfl]
    exact ⟨rfl, fun m' h => by
      rcases h with ⟨b, e⟩ | e
      · exact nomatch e
      · exact nomatch e⟩
  | load p k ih =>
    cases n with
    | zero => exact absurd hn (by simp [Thread.steps])
    | succ n => exact ih (m.cell p) m n (Nat.le_of_succ_le_succ hn)
  | store p v k ih =>
    cases n with
    | zero => exact absurd hn (by simp [Thread.steps])
    | succ n => exact ih (m.write p [v]) n (Nat.le_of_succ_le_succ hn)

/-! ## Side by side -/

/-- Footprints of goroutines that do not disturb each other. -/
structure Separate (ts : Nat → Thread T α) (R W : Nat → Nat → Prop) : Prop where
  within : ∀ i, (ts i).Within (R i) (W i)
  apart : ∀ i j, i ≠ j → ∀ p, W i p → ¬ R j p
  own : ∀ i p, W i p → R i p

/-- Every goroutine is where it would be if it had made its accesses alone, and finds its cells as if it were alone. -/
theorem Separate.side {R W : Nat → Nat → Prop} (s : List Nat) {ts : Nat → Thread T α} (h : Separate ts R W) (m : Mem T) :
    (∀ i, (interleave ts m s).1 i = ((ts i).alone (s.count i) m).1 ∧
      ∀ p, R i p → (interleave ts m s).2.cell p = ((ts i).alone (s.count i) m).2.cell p) ∧
    (∀ p, (∀ i, ¬ W i p) → (interleave ts m s).2.cell p = m.cell p) ∧ (interleave ts m s).2.top = m.top := by
  induction s generalizing ts m with
  | nil => exact ⟨fun i => ⟨rfl, fun p _ => rfl⟩, fun p _ => rfl, rfl⟩
  | cons i s ih =>
    have h' : Separate (fun j => if j = i then ((ts i).step m).1 else ts j) R W := by
      refine ⟨fun j => ?_, h.apart, h.own⟩
      by_cases e : j = i
      · subst e; simpa using (h.within j).step m
      · simpa [e] using h.within j
    obtain ⟨h1, h2, h3⟩ := ih h' ((ts i).step m).2
    refine ⟨fun j => ?_, fun p hp => (h2 p hp).trans ((h.within i).step_spares m (hp i)), h3.trans ((ts i).step_top m)⟩
    have hj := h1 j
    by_cases e : j = i
    · subst e
      rw [List.count_cons_self]
      simp only [if_true] at hj
      exact hj
    · rw [List.count_cons_of_ne (Ne.symm e)]
      simp only [if_neg e] at hj
      obtain ⟨a1, a2⟩ := (h.within j).alone_agree (s.count j) (C := R j) (fun p hp => hp)
        (m := m) (m' := ((ts i).step m).2) (fun p hp => (h.within i).step_spares m (fun hw => h.apart i j (Ne.symm e) p hw hp))
      exact ⟨hj.1.trans a1, fun p hp => (hj.2 p hp).trans (a2 p hp)⟩

theorem Separate.reached {R W : Nat → Nat → Prop} (s : List Nat) {ts : Nat → Thread T α} (h : Separate ts R W) (m : Mem T) :
    Separate (interleave ts m s).1 R W := by
  induction s generalizing ts m with
  | nil => exact h
  | cons i s ih =>
    refine ih (ts := fun j => if j = i then ((ts i).step m).1 else ts j) ⟨fun j => ?_, h.apart, h.own⟩ _
    by_cases e : j = i
    · subst e; simpa using (h.within j).step m
    · simpa [e] using h.within j

theorem Thread.Within.next {R W : Nat → Prop} {x : Thread T α} (h : x.Within R W) (ho : ∀ p, W p → R p) {p : Nat} {w : Bool} (e : x.next = some (p, w)) :
    R p ∧ (w = true → W p) := by
  cases x with
  | load q k => injection e with e; injection e with e1 e2; subst e1 e2; exact ⟨h.1, fun h => nomatch h⟩
  | store q v k => injection e with e; injection e with e1 e2; subst e1 e2; exact ⟨ho _ h.1, fun _ => h.1⟩
  | ret a => exact nomatch e
  | panic => exact nomatch e
  | diverge => exact nomatch e

end Stl4go
