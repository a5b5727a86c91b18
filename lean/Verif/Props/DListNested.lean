import Verif.Proofs.DListNested
/-!
# Property C151: loops over the lists of `/repo/dlist.go` inside one another

Client code is a program over all list variables, iterators and `ForEach` methods (`EProg`), whose callbacks are such programs again.
-/
namespace Stl4go
variable {T σ : Type} [GoZero T]

/-- Whatever the client does next, it sees the lists and iterators of `st`, as far as the specification settles it. -/
def CWorld.Shows (w : CWorld T) (st : CSpec T) : Prop :=
  ∀ ops os st', st.run (ops.map COp.outer) = some (os, st') → (w.run ops).1 = os

theorem HInv.shows {w : CWorld T} {hid : Nat → Nat × DIter} {st : CSpec T} (h : HInv w hid st) : w.Shows st := by
  intro ops
  induction ops generalizing w st with
  | nil => intro os st' e; cases e; rfl
  | cons op ops ih =>
    intro os st' e
    simp only [List.map_cons, CSpec.run] at e
    cases e1 : st.step op.outer with
    | none => simp [e1] at e
    | some r =>
      obtain ⟨o, st1⟩ := r
      obtain ⟨a, b⟩ := h.step e1
      simp only [e1] at e
      cases e2 : st1.run (ops.map COp.outer) with
      | none => simp [e2] at e
      | some r =>
        obtain ⟨os2, st2⟩ := r
        simp only [e2, Option.some.injEq, Prod.mk.injEq] at e
        obtain ⟨rfl, rfl⟩ := e
        simp only [CWorld.run, a, ih b os2 _ e2]

/-- The program ended as the specification says, and whatever the client does next it sees what the specification says. -/
def EndsLikeW {α : Type} : Res (CWorld T) α → Res (CSpec T) α → Prop
  | .ok a w, .ok b st => a = b ∧ w.Shows st
  | .panic w, .panic st => w.Shows st
  | .diverge, .diverge => True
  | _, _ => False

/-- C151: whatever a program does with lists, iterators and loops inside one another, every loop is like an iterator that the program cannot name,
and stays on its element whatever is done in the callbacks. -/
theorem C151_programs {α : Type} (p : EProg (COp T) T α) (fuel : Nat) (r : Res (CSpec T) α) (h : p.spec fuel 0 CSpec.init = some r) :
    EndsLikeW (p.exec fuel CWorld.init) r := by
  have := EProg.exec_settles fuel p 0 CWorld.init _ CSpec.init HInv.init
  rw [h] at this
  revert this
  cases p.exec fuel CWorld.init <;> cases r <;> intro this <;> try exact this.elim
  · exact ⟨this.1, by obtain ⟨_, _, _, h⟩ := this; exact h.shows⟩
  · obtain ⟨_, h⟩ := this; exact h.shows
  · trivial

/-- C151: the specification settles all programs that call the methods of their lists, and loop over them, in any nesting; it says nothing only
about iterators of lists that were replaced or cleared. -/
theorem C151_settled {α : Type} (p : EProg (COp T) T α) (hp : p.Calls (fun op => ∃ i o, op = .list i o ∧ ∀ vs, o ≠ .make vs)) (fuel : Nat) :
    ∃ r, p.spec fuel 0 CSpec.init = some r := by
  have hp' : p.Calls (COp.Spares (fun _ => False)) := by
    induction p with
    | ret | panic | hang => trivial
    | call op k ih =>
      obtain ⟨⟨i, o, rfl, h⟩, h2⟩ := hp
      exact ⟨⟨h, fun f => f.elim⟩, fun o => ih o (h2 o)⟩
    | each i cb t k ih1 ih2 => exact ⟨fun t v => ih1 t v (hp.1 t v), fun t => ih2 t (hp.2 t)⟩
    | eachPtr c i cb t k ih1 ih2 => exact ⟨fun t => ih1 t (hp.1 t), fun t => ih2 t (hp.2 t)⟩
  obtain ⟨r, h, _⟩ := EProg.spec_kept fuel p hp' 0 CSpec.init (fun x hx => by omega)
  exact ⟨r, h⟩

/-- A world that a program reached, with what the specification says about it. -/
def CReached (w : CWorld T) (st : CSpec T) : Prop :=
  ∃ (α : Type) (p : EProg (COp T) T α) (fuel : Nat) (a : α), p.exec fuel CWorld.init = .ok a w ∧ p.spec fuel 0 CSpec.init = some (.ok a st)

theorem CReached.hinv {w : CWorld T} {st : CSpec T} (h : CReached w st) : ∃ hid, HInv w hid st := by
  obtain ⟨α, p, fuel, a, h1, h2⟩ := h
  have := EProg.exec_settles fuel p 0 CWorld.init _ CSpec.init HInv.init
  rw [h1, h2] at this
  obtain ⟨_, hid, _, h⟩ := this
  exact ⟨hid, h⟩

/-- C151: a callback may do what it likes with all other lists, and loop over all lists: as long as it only reads the list of its loop, the loop
visits the elements that the list had, in order, up to the first at which the callback says stop, panics or does not return. -/
theorem C151_visits {w : CWorld T} {st : CSpec T} (hw : CReached w st) (i : Nat) (cb : σ → T → EProg (COp T) T (σ × Bool))
    (hcb : ∀ t v, (cb t v).Calls (COp.Spares (· = i))) (t : σ) (fuel : Nat) (hf : (st.lists i).items.length < fuel) :
    (EProg.each i cb t .ret).exec fuel w = visitM (fun t v => (cb t v).exec fuel) (st.lists i).items t w := by
  obtain ⟨hid, h⟩ := hw.hinv
  have := forEachIfW_visits fuel i cb hcb t h hf
  simp only [EProg.exec, GoM.bind_def]
  rw [this]
  cases visitM (fun t v => (cb t v).exec fuel) (st.lists i).items t w <;> rfl

/-- C151: a loop over list `j` inside a loop over list `i`, which may be the same list, gives all pairs of an element of `i` and one of `j`,
and nothing changes. -/
theorem C151_pairs {w : CWorld T} {st : CSpec T} (hw : CReached w st) (i j : Nat) (fuel : Nat)
    (hi : (st.lists i).items.length < fuel) (hj : (st.lists j).items.length < fuel) :
    (EProg.each i (fun (t : List (T × T)) a => .each j (fun (t : List (T × T)) b => .ret (t ++ [(a, b)], true)) t (fun t => .ret (t, true))) [] .ret).exec fuel w =
      .ok ((st.lists i).items.flatMap (fun a => (st.lists j).items.map (fun b => (a, b)))) w := by
  rw [C151_visits hw i (fun (t : List (T × T)) a => .each j (fun (t : List (T × T)) b => .ret (t ++ [(a, b)], true)) t (fun t => .ret (t, true)))
    (fun t v => ⟨fun _ _ => trivial, fun _ => trivial⟩) [] fuel hi]
  rw [visitM_pure _ (fun t a => t ++ (st.lists j).items.map (fun b => (a, b))) w]
  · congr 1
    have : ∀ (s : List T) (t : List (T × T)), s.foldl (fun t a => t ++ (st.lists j).items.map (fun b => (a, b))) t = t ++ s.flatMap (fun a => (st.lists j).items.map (fun b => (a, b))) := by
      intro s
      induction s with
      | nil => simp
      | cons v s ih => intro t; simp [ih]
    simpa using this (st.lists i).items []
  · intro t a
    obtain ⟨hid, h⟩ := hw.hinv
    have := forEachIfW_visits fuel j (fun (t : List (T × T)) b => .ret (t ++ [(a, b)], true)) (fun _ _ => by simp only [EProg.Calls]) t h hj
    simp only [EProg.exec, GoM.bind_def] at this ⊢
    rw [this, visitM_pure (fun (t : List (T × T)) v => (pure (t ++ [(a, v)], true) : GoM (CWorld T) _)) (fun t b => t ++ [(a, b)]) w (fun t v => rfl)]
    have : ∀ (s : List T) (t : List (T × T)), s.foldl (fun t b => t ++ [(a, b)]) t = t ++ s.map (fun b => (a, b)) := by
      intro s
      induction s with
      | nil => simp
      | cons v s ih => intro t; simp [ih]
    simp [this]

/-- C151: copying the elements of list `i` to the back of another list in the callback. -/
theorem C151_transfer {w : CWorld T} {st : CSpec T} (hw : CReached w st) (i j : Nat) (hij : j ≠ i) (fuel : Nat)
    (hf : (st.lists i).items.length < fuel) :
    ∃ w', (EProg.each i (fun (_ : Unit) v => .call (.list j (.pushBack v)) (fun _ => .ret ((), true))) () .ret).exec fuel w = .ok () w' ∧
      (w'.step (.list j .values)).1 = .list ((st.lists j).items ++ (st.lists i).items) ∧
      ∀ k, k ≠ j → (w'.step (.list k .values)).1 = .list (st.lists k).items := by
  rw [C151_visits hw i (fun (_ : Unit) v => .call (.list j (.pushBack v)) (fun _ => .ret ((), true))) (fun t v => ⟨⟨fun vs h => (by cases h), fun h => (hij h).elim⟩, fun _ => trivial⟩) () fuel hf]
  obtain ⟨hid, h⟩ := hw.hinv
  have key : ∀ (s : List T) (w : CWorld T) (st : CSpec T), HInv w hid st → ∃ w' st',
      visitM (fun (_ : Unit) v => (EProg.call (.list j (.pushBack v)) (fun _ => .ret ((), true)) : EProg (COp T) T (Unit × Bool)).exec fuel) s () w = .ok () w' ∧
      HInv w' hid st' ∧ (st'.lists j).items = (st.lists j).items ++ s ∧ ∀ k, k ≠ j → (st'.lists k).items = (st.lists k).items := by
    intro s
    induction s with
    | nil => intro w st h; exact ⟨w, st, rfl, h, by simp, fun _ _ => rfl⟩
    | cons v s ih =>
      intro w st h
      obtain ⟨a, b⟩ := h.step (op := .list j (.pushBack v)) rfl
      obtain ⟨w', st', c1, c2, c3, c4⟩ := ih _ _ b
      refine ⟨w', st', ?_, c2, ?_, fun k hk => ?_⟩
      · rw [← c1]
        simp only [visitM, GoM.bind_def, EProg.exec, CWorld.call]
        generalize e : w.step (.list j (.pushBack v)) = r at a
        obtain ⟨o, w1⟩ := r
        simp only [Deque.step] at a
        subst a
        rfl
      · rw [c3]; simp [CList.after, Deque.step]
      · rw [c4 k hk]; simp [hk]
  obtain ⟨w', st', c1, c2, c3, c4⟩ := key (st.lists i).items w st h
  refine ⟨w', c1, ?_, fun k hk => ?_⟩
  · rw [← c3]; exact (c2.step (op := .list j .values) rfl).1
  · rw [← c4 k hk]; exact (c2.step (op := .list k .values) rfl).1

/-! ## `ForEach` and `ForEachMutable` -/

omit [GoZero T] in
/-- C151: `ForEach` and `ForEachMutable` are `ForEachIf` and `ForEachMutableIf` with a callback that always goes on. -/
theorem C151_forEach (fuel c i : Nat) (cb : σ → T → GoM (CWorld T) σ) (cb' : σ → GoM (CWorld T) σ) (t : σ) :
    DL.forEachW fuel i cb t = DL.forEachIfW fuel i (fun t v => do let t ← cb t v; return (t, true)) t ∧
    DL.forEachMutableW fuel c i cb' t = DL.forEachMutableIfW fuel c i (fun t => do let t ← cb' t; return (t, true)) t := by
  constructor
  · simp only [DL.forEachW, DL.forEachIfW, forEachLoopW_eq]
  · simp only [DL.forEachMutableW, DL.forEachMutableIfW, forEachMutableLoopW_eq]

/-! ## Concrete cases -/

def nestSeen {α : Type} (p : EProg (COp Int) Int α) : Option (α ⊕ Bool × List (DObs Int)) :=
  match p.exec 20 CWorld.init with
  | .ok a _ => some (.inl a)
  | .panic w => some (.inr (true, (w.run [.list 0 .values, .list 1 .values]).1))
  | .diverge => some (.inr (false, []))

def nestMake {α : Type} (p : EProg (COp Int) Int α) : EProg (COp Int) Int α :=
  .call (.list 0 (.make [1, 2])) fun _ => .call (.list 1 (.make [5, 6])) fun _ => p

/-- All pairs. -/
example : nestSeen (nestMake (.each 0 (fun (t : List (Int × Int)) a => .each 1 (fun (t : List (Int × Int)) b => .ret (t ++ [(a, b)], true)) t (fun t => .ret (t, true))) [] .ret)) =
    some (.inl [(1, 5), (1, 6), (2, 5), (2, 6)]) := by decide +kernel

/-- An inner loop over the same list that appends elements: the outer loop sees them. -/
example : nestSeen (nestMake (.each 0 (fun (t : List Int) a => .each 1 (fun (t : List Int) b => .call (.list 0 (.pushBack (a * 10 + b))) (fun _ => .ret (t, decide (a > 9)))) (t ++ [a])
    (fun t => .ret (t, decide (t.length < 4)))) [] .ret)) = some (.inl [1, 2, 15, 25]) := by decide +kernel

/-- An inner loop that pops the list of the outer loop: the outer loop panics when it goes on, and the element is gone. -/
example : nestSeen (nestMake (.each 0 (fun (t : Unit) _ => .each 1 (fun (t : Unit) _ => .call (.list 0 .popFront) (fun _ => .ret (t, false))) t (fun t => .ret (t, true))) () .ret)) =
    some (.inr (true, [.list [2], .list [5, 6]])) := by decide +kernel

/-- Pointers of an outer loop that an inner loop writes through: the products. -/
example : nestSeen (nestMake (.eachPtr 0 0 (fun (t : Unit) => .each 1 (fun (t : Unit) b => .call (.value 0) (fun o => match o with
      | .val a => .call (.set 0 (a * b)) (fun _ => .ret (t, true))
      | _ => .panic)) t (fun t => .ret (t, true))) () (fun _ => .call (.list 0 .values) .ret))) =
    some (.inl (.list [30, 60])) := by decide +kernel

end Stl4go
