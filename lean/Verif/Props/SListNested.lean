import Verif.Proofs.SListNested
import Verif.Proofs.DListNested
/-!
# Property C152: loops over the lists of `/repo/slist.go` inside one another

Client code is a program over all list variables, iterators and `ForEach` methods (`EProg`), whose callbacks are such programs again.
-/
namespace Stl4go
variable {T σ : Type} [GoZero T]

/-- Whatever the client does next, it sees the lists and iterators of `st`, as far as the specification settles it. -/
def LCWorld.Shows (w : LCWorld T) (st : LCSpec T) : Prop :=
  ∀ ops os st', st.run (ops.map LCOp.outer) = some (os, st') → (w.run ops).1 = os

theorem LHInv.shows {w : LCWorld T} {hid : Nat → LIter} {st : LCSpec T} (h : LHInv w hid st) : w.Shows st := by
  intro ops
  induction ops generalizing w st with
  | nil => intro os st' e; cases e; rfl
  | cons op ops ih =>
    intro os st' e
    simp only [List.map_cons, LCSpec.run] at e
    cases e1 : st.step op.outer with
    | none => simp [e1] at e
    | some r =>
      obtain ⟨o, st1⟩ := r
      obtain ⟨a, b⟩ := h.step e1
      simp only [e1] at e
      cases e2 : st1.run (ops.map LCOp.outer) with
      | none => simp [e2] at e
      | some r =>
        obtain ⟨os2, st2⟩ := r
        simp only [e2, Option.some.injEq, Prod.mk.injEq] at e
        obtain ⟨rfl, rfl⟩ := e
        simp only [LCWorld.run, a, ih b os2 _ e2]

/-- The program ended as the specification says, and whatever the client does next it sees what the specification says. -/
def EndsLikeLW {α : Type} : Res (LCWorld T) α → Res (LCSpec T) α → Prop
  | .ok a w, .ok b st => a = b ∧ w.Shows st
  | .panic w, .panic st => w.Shows st
  | .diverge, .diverge => True
  | _, _ => False

/-- C152: whatever a program does with lists, iterators and loops inside one another, every loop is like an iterator that the program cannot name,
and stays on its element whatever is done in the callbacks. -/
theorem C152_programs {α : Type} (p : EProg (LCOp T) T α) (fuel : Nat) (r : Res (LCSpec T) α) (h : p.specL fuel 0 LCSpec.init = some r) :
    EndsLikeLW (p.execL fuel LCWorld.init) r := by
  have := EProg.execL_settles fuel p 0 LCWorld.init _ LCSpec.init LHInv.init
  rw [h] at this
  revert this
  cases p.execL fuel LCWorld.init <;> cases r <;> intro this <;> try exact this.elim
  · exact ⟨this.1, by obtain ⟨_, _, _, h⟩ := this; exact h.shows⟩
  · obtain ⟨_, h⟩ := this; exact h.shows
  · trivial

omit [GoZero T] in
/-- C152: the specification settles all programs that do not write through pointers. -/
theorem C152_settled {α : Type} (p : EProg (LCOp T) T α) (hp : p.Calls (fun op => ∀ c v, op ≠ .set c v)) (fuel : Nat) :
    ∃ r, p.specL fuel 0 LCSpec.init = some r := by
  obtain ⟨r, h, _⟩ := EProg.specL_kept (P := fun _ => False) fuel p (EProg.Calls.mono (fun op h => by
    cases op with
    | list j op => exact fun f => f.elim
    | set c v => exact h c v rfl
    | _ => trivial) p hp) 0 LCSpec.init
  exact ⟨r, h⟩

/-- A world that a program reached, with what the specification says about it. -/
def LCReached (w : LCWorld T) (st : LCSpec T) : Prop :=
  ∃ (α : Type) (p : EProg (LCOp T) T α) (fuel : Nat) (a : α), p.execL fuel LCWorld.init = .ok a w ∧ p.specL fuel 0 LCSpec.init = some (.ok a st)

theorem LCReached.hinv {w : LCWorld T} {st : LCSpec T} (h : LCReached w st) : ∃ hid, LHInv w hid st := by
  obtain ⟨α, p, fuel, a, h1, h2⟩ := h
  have := EProg.execL_settles fuel p 0 LCWorld.init _ LCSpec.init LHInv.init
  rw [h1, h2] at this
  obtain ⟨_, hid, _, h⟩ := this
  exact ⟨hid, h⟩

/-- C152: a callback may do what it likes with all other lists, and loop over all lists. As long as it does not append to the list of its loop,
reverse it or write its elements, the loop visits the elements that the list had, in order, up to the first at which the callback says stop,
panics or does not return. Popping, pushing at the front, clearing and replacing the list make no difference. -/
theorem C152_visits {w : LCWorld T} {st : LCSpec T} (hw : LCReached w st) (i : Nat) (cb : σ → T → EProg (LCOp T) T (σ × Bool))
    (hcb : ∀ t v, (cb t v).Calls (LCOp.Spares (· = i))) (t : σ) (fuel : Nat) (hf : (st.lists i).length < fuel) :
    (EProg.each i cb t .ret).execL fuel w = visitM (fun t v => (cb t v).execL fuel) (st.lists i) t w := by
  obtain ⟨hid, h⟩ := hw.hinv
  have := LL.forEachIfW_visits fuel i cb hcb t h hf
  simp only [EProg.execL, GoM.bind_def]
  rw [this]
  cases visitM (fun t v => (cb t v).execL fuel) (st.lists i) t w <;> rfl

/-- C152: a program that does not panic itself and makes no call that can panic does not panic in its loops either, whatever it does to the lists it
goes over. -/
theorem C152_calm {w : LCWorld T} {st : LCSpec T} (hw : LCReached w st) {α : Type} (p : EProg (LCOp T) T α) (hc : p.Calls LCOp.Calm) (hn : p.NoPanic)
    (fuel : Nat) : ∀ w', p.execL fuel w ≠ .panic w' := by
  obtain ⟨hid, h⟩ := hw.hinv
  have hs := EProg.execL_settles fuel p 0 w hid st h
  have hcalm := EProg.specL_calm fuel p hc hn 0 st
  obtain ⟨r, hr, _⟩ := EProg.specL_kept (P := fun _ => False) fuel p (EProg.Calls.mono (fun op h => by
    cases op with
    | list j op => exact fun f => f.elim
    | set c v => exact h
    | _ => trivial) p hc) 0 st
  rw [hr] at hs hcalm
  intro w' e
  rw [e] at hs
  cases r with
  | ok => exact hs
  | panic => exact hcalm
  | diverge => exact hs

/-- C152: a loop over list `j` inside a loop over list `i`, which may be the same list, gives all pairs of an element of `i` and one of `j`,
and nothing changes. -/
theorem C152_pairs {w : LCWorld T} {st : LCSpec T} (hw : LCReached w st) (i j : Nat) (fuel : Nat)
    (hi : (st.lists i).length < fuel) (hj : (st.lists j).length < fuel) :
    (EProg.each i (fun (t : List (T × T)) a => .each j (fun (t : List (T × T)) b => .ret (t ++ [(a, b)], true)) t (fun t => .ret (t, true))) [] .ret).execL fuel w =
      .ok ((st.lists i).flatMap (fun a => (st.lists j).map (fun b => (a, b)))) w := by
  rw [C152_visits hw i (fun (t : List (T × T)) a => .each j (fun (t : List (T × T)) b => .ret (t ++ [(a, b)], true)) t (fun t => .ret (t, true)))
    (fun t v => ⟨fun _ _ => trivial, fun _ => trivial⟩) [] fuel hi]
  rw [visitM_pure _ (fun t a => t ++ (st.lists j).map (fun b => (a, b))) w]
  · congr 1
    have : ∀ (s : List T) (t : List (T × T)), s.foldl (fun t a => t ++ (st.lists j).map (fun b => (a, b))) t = t ++ s.flatMap (fun a => (st.lists j).map (fun b => (a, b))) := by
      intro s
      induction s with
      | nil => simp
      | cons v s ih => intro t; simp [ih]
    simpa using this (st.lists i) []
  · intro t a
    obtain ⟨hid, h⟩ := hw.hinv
    have := LL.forEachIfW_visits fuel j (fun (t : List (T × T)) b => .ret (t ++ [(a, b)], true)) (fun _ _ => by simp only [EProg.Calls]) t h hj
    simp only [EProg.execL, GoM.bind_def] at this ⊢
    rw [this, visitM_pure (fun (t : List (T × T)) v => (pure (t ++ [(a, v)], true) : GoM (LCWorld T) _)) (fun t b => t ++ [(a, b)]) w (fun t v => rfl)]
    have : ∀ (s : List T) (t : List (T × T)), s.foldl (fun t b => t ++ [(a, b)]) t = t ++ s.map (fun b => (a, b)) := by
      intro s
      induction s with
      | nil => simp
      | cons v s ih => intro t; simp [ih]
    simp [this]

omit [GoZero T] in
/-- C152: `ForEach` and `ForEachMutable` are `ForEachIf` and `ForEachMutableIf` with a callback that always goes on. -/
theorem C152_forEach (fuel c i : Nat) (cb : σ → T → GoM (LCWorld T) σ) (cb' : σ → GoM (LCWorld T) σ) (t : σ) :
    LL.forEachW fuel i cb t = LL.forEachIfW fuel i (fun t v => do let t ← cb t v; return (t, true)) t ∧
    LL.forEachMutableW fuel c i cb' t = LL.forEachMutableIfW fuel c i (fun t => do let t ← cb' t; return (t, true)) t := by
  constructor
  · simp only [LL.forEachW, LL.forEachIfW, LL.forEachLoopW_eq]
  · simp only [LL.forEachMutableW, LL.forEachMutableIfW, LL.forEachMutableLoopW_eq]

/-! ## Concrete cases -/

def nestSeenL {α : Type} (p : EProg (LCOp Int) Int α) : Option (α ⊕ Bool × List (DObs Int)) :=
  match p.execL 20 LCWorld.init with
  | .ok a _ => some (.inl a)
  | .panic w => some (.inr (true, (w.run [.list 0 .values, .list 1 .values]).1))
  | .diverge => some (.inr (false, []))

def nestMakeL {α : Type} (p : EProg (LCOp Int) Int α) : EProg (LCOp Int) Int α :=
  .call (.list 0 (.make [1, 2, 3])) fun _ => .call (.list 1 (.make [5, 6])) fun _ => p

/-- All pairs. -/
example : nestSeenL (nestMakeL (.each 1 (fun (t : List (Int × Int)) a => .each 0 (fun (t : List (Int × Int)) b => .ret (t ++ [(a, b)], true)) t (fun t => .ret (t, true))) [] .ret)) =
    some (.inl [(5, 1), (5, 2), (5, 3), (6, 1), (6, 2), (6, 3)]) := by decide +kernel

/-- An inner loop over the same list that empties it: the inner and the outer loop go on over the removed elements, a new inner loop has none. -/
def exDrain (t : List (Int × Int)) (a : Int) : EProg (LCOp Int) Int (List (Int × Int) × Bool) :=
  .each 0 (fun t b => .call (.list 0 .popFront) (fun _ => .ret (t ++ [(a, b)], true))) t (fun t => .ret (t ++ [(a, 0)], true))
example : nestSeenL (nestMakeL (.each 0 exDrain [] .ret)) = some (.inl [(1, 1), (1, 2), (1, 3), (1, 0), (2, 0), (3, 0)]) := by decide +kernel

/-- This callback is one of those of `C152_visits`. -/
example : ∀ t v, (exDrain t v).Calls (LCOp.Spares (· = 0)) :=
  fun _ _ => ⟨fun _ _ => ⟨fun _ => trivial, fun _ => trivial⟩, fun _ => trivial⟩

/-- A program as in `C152_calm`: the inner loop reverses the list of the outer loop. -/
def exTurn : EProg (LCOp Int) Int (List Int) :=
  nestMakeL (.each 0 (fun (t : List Int) a => .each 1 (fun t b => .call (.list 0 .reverse) (fun _ => .ret (t ++ [a * b], true))) t
    (fun t => .call (.list 1 (.pushFront 7)) (fun _ => .call (.list 0 .clear) (fun _ => .ret (t, true))))) [] .ret)
example : exTurn.Calls LCOp.Calm ∧ exTurn.NoPanic :=
  ⟨⟨trivial, fun _ => ⟨trivial, fun _ => ⟨fun _ _ => ⟨fun _ _ => ⟨trivial, fun _ => trivial⟩, fun _ => ⟨trivial, fun _ => ⟨trivial, fun _ => trivial⟩⟩⟩, fun _ => trivial⟩⟩⟩,
    fun _ _ => ⟨fun _ _ => ⟨fun _ _ _ => trivial, fun _ _ _ => trivial⟩, fun _ => trivial⟩⟩
example : nestSeenL exTurn = some (.inl [5, 6, 14, 10, 12, 21, 21, 15, 18]) := by decide +kernel

/-- Pointers of an outer loop that an inner loop writes through. -/
example : nestSeenL (nestMakeL (.eachPtr 0 0 (fun (t : Unit) => .each 1 (fun (t : Unit) b => .call (.value 0) (fun o => match o with
      | .val a => .call (.set 0 (a * b)) (fun _ => .ret (t, true))
      | _ => .panic)) t (fun t => .ret (t, true))) () (fun _ => .call (.list 0 .values) .ret))) =
    some (.inl (.list [30, 60, 90])) := by decide +kernel

end Stl4go
