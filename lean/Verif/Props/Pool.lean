import Verif.Proofs.Pool
/-!
# Property C81: `/repo/pool.go`

`rt` makes the choices of `sync.Pool`: it drops any objects at any time and hands out any it still has.
-/
namespace Stl4go

/-- C81: as long as the program puts back only what it holds, the pool never hands out nil or an object the program holds. -/
theorem C81_exclusive (rt : PoolRt) (ops : List POp) (hl : Lawful [] ops (PWorld.empty.run rt (makePool newT) newT ops)) :
    Exclusive [] ops (PWorld.empty.run rt (makePool newT) newT ops) :=
  run_exclusive rt ops [] _ ⟨by simp [PWorld.empty], by simp [PWorld.empty]⟩ hl

/-- C81: the same for `MakePoolWithNew` with a function that allocates. -/
theorem C81_exclusive_withNew (rt : PoolRt) (ops : List POp) (hl : Lawful [] ops (PWorld.empty.run rt (makePoolWithNew (some newT)) newT ops)) :
    Exclusive [] ops (PWorld.empty.run rt (makePoolWithNew (some newT)) newT ops) :=
  C81_exclusive rt ops hl

/-- C81: `Get` of `MakePool` never returns nil, even for programs that put back what they like. -/
theorem C81_nonnil (rt : PoolRt) (ops : List POp) : ∃ x w', poolGet rt (makePool newT) (PWorld.empty.after rt (makePool newT) newT ops) = .ok x w' ∧ x ≠ none := by
  have hk : ∀ (ops : List POp) (w : PWorld), none ∉ w.kept → none ∉ (w.after rt (makePool newT) newT ops).kept := by
    intro ops
    induction ops with
    | nil => intro w h; exact h
    | cons op ops ih =>
      intro w h
      refine ih _ (call_kept rt _ _ ?_ ?_ ?_ ?_ op w h)
      · intro f w r w' hf e
        simp only [makePool, Option.some.injEq] at hf
        subst hf
        simp only [GoM.bind_def, newT, GoM.pure_apply, Res.ok.injEq] at e
        rw [← e.2]
      · intro f w w' hf e
        simp only [makePool, Option.some.injEq] at hf
        subst hf
        simp [GoM.bind_def, newT] at e
      · intro w r w' e
        simp only [newT, Res.ok.injEq] at e
        rw [← e.2]
      · intro w w' e
        simp [newT] at e
  have h := hk ops PWorld.empty (by simp [PWorld.empty])
  generalize PWorld.empty.after rt (makePool newT) newT ops = w at h
  obtain ⟨kept, hs, hc⟩ := poolGet_cases rt (makePool newT) w
  rcases hc with ⟨x, rest, hp, e⟩ | ⟨hp, _⟩ | ⟨f, hf, e⟩
  · refine ⟨x, _, e, fun hx => h (hs.subset (hp.mem_iff.1 ?_))⟩
    rw [hx]; simp
  · simp [makePool] at hp
  · simp only [makePool, Option.some.injEq] at hf
    subst hf
    exact ⟨some w.next, _, e, by simp⟩

/-- C81: `Put(nil)` has no effect. -/
theorem C81_put_nil (rt : PoolRt) (w : PWorld) : poolPut rt none w = .ok () w := rfl

/-- C81: `Put` of an object adds it to what the pool has, apart from what it drops. -/
theorem C81_put (rt : PoolRt) (w : PWorld) (n : Nat) : ∃ kept, kept.Sublist w.kept ∧
    poolPut rt (some n) w = .ok () { w with kept := some n :: kept, calls := w.calls + 1 } :=
  ⟨_, keepFrom_sublist _ _ _, rfl⟩

/-- C81 is about everything that `sync.Pool` may do: at each call it may have dropped any of the objects it has, and `Get` may then return any of the others, or a new one. -/
theorem C81_every_choice (w : PWorld) (kept : List PtrT) (h : kept.Sublist w.kept) :
    (∀ n, ∃ rt, poolPut rt (some n) w = .ok () { w with kept := some n :: kept, calls := w.calls + 1 }) ∧
    (∀ p i x, kept[i]? = some x → ∃ rt, poolGet rt p w = .ok x { w with kept := kept.eraseIdx i, calls := w.calls + 1 }) ∧
    ∃ rt, poolGet rt (makePool newT) w = .ok (some w.next) { next := w.next + 1, kept := kept, calls := w.calls + 1 } := by
  obtain ⟨d, hd⟩ := keepFrom_any h 0
  refine ⟨fun n => ⟨⟨fun _ => d, fun _ => 0⟩, ?_⟩, fun p i x hx => ⟨⟨fun _ => d, fun _ => i⟩, ?_⟩, ⟨⟨fun _ => d, fun _ => kept.length⟩, ?_⟩⟩
  · simp [poolPut, syncPut, hd]
  · simp only [poolGet, GoM.bind_def, syncGet, hd, hx]
    rfl
  · simp only [poolGet, GoM.bind_def, syncGet, hd, List.getElem?_eq_none (Nat.le_refl _)]
    rfl

/-- C81: with no `New`, `Get` returns nil exactly when it takes nothing out of the pool; otherwise it takes out what it returns. -/
theorem C81_no_new (rt : PoolRt) (w : PWorld) (h : none ∉ w.kept) : ∃ kept x w', kept.Sublist w.kept ∧
    poolGet rt (makePoolWithNew none) w = .ok x w' ∧ w'.next = w.next ∧ (x = none ↔ w'.kept = kept) ∧ (x ≠ none → (x :: w'.kept).Perm kept) := by
  obtain ⟨kept, hs, hc⟩ := poolGet_cases rt (makePoolWithNew none) w
  rcases hc with ⟨x, rest, hp, e⟩ | ⟨_, e⟩ | ⟨f, hf, _⟩
  · have hx : x ≠ none := by
      rintro rfl
      exact h (hs.subset (hp.mem_iff.1 (by simp)))
    refine ⟨kept, x, _, hs, e, rfl, ⟨fun h => absurd h hx, fun h => ?_⟩, fun _ => hp⟩
    have := hp.length_eq
    simp only at h
    rw [h] at this
    simp at this
  · exact ⟨kept, none, _, hs, e, rfl, ⟨fun _ => rfl, fun _ => rfl⟩, fun h => absurd rfl h⟩
  · simp [makePoolWithNew] at hf

/-- C81: with no `New`, an object is handed out at most as often as it was put in, whatever the program does. -/
theorem C81_no_invention (rt : PoolRt) (ops : List POp) (x : Nat) :
    getsOf x ops (PWorld.empty.run rt (makePoolWithNew none) newT ops) ≤ putsOf x ops := by
  have key : ∀ (ops : List POp) (w : PWorld), getsOf x ops (w.run rt (makePoolWithNew none) newT ops) ≤ putsOf x ops + w.kept.count (some x) := by
    intro ops
    induction ops with
    | nil => intro w; simp [getsOf]
    | cons op ops ih =>
      intro w
      cases op with
      | alloc =>
        simp only [PWorld.run, POp.call, newT, getsOf, putsOf]
        exact ih _
      | put y =>
        cases y with
        | none =>
          simp only [PWorld.run, POp.call, C81_put_nil, getsOf, putsOf]
          simpa using ih w
        | some n =>
          obtain ⟨kept, hs, e⟩ := C81_put rt w n
          simp only [PWorld.run, POp.call, e, getsOf, putsOf]
          have h1 := ih { w with kept := some n :: kept, calls := w.calls + 1 }
          have h2 := hs.count_le (some x)
          simp only [List.count_cons, beq_iff_eq] at h1
          omega
      | get =>
        obtain ⟨kept, hs, hc⟩ := poolGet_cases rt (makePoolWithNew none) w
        have h2 := hs.count_le (some x)
        rcases hc with ⟨y, rest, hp, e⟩ | ⟨_, e⟩ | ⟨f, hf, _⟩
        · simp only [PWorld.run, POp.call, e, getsOf, putsOf]
          have h1 := ih { w with kept := rest, calls := w.calls + 1 }
          have h4 : List.count (some x) { w with kept := rest, calls := w.calls + 1 }.kept = List.count (some x) rest := rfl
          have h3 := hp.count_eq (some x)
          simp only [List.count_cons, beq_iff_eq] at h3
          simp only [PObs.ptr.injEq]
          omega
        · simp only [PWorld.run, POp.call, e, getsOf, putsOf]
          have h1 := ih { w with kept := kept, calls := w.calls + 1 }
          have h4 : List.count (some x) { w with kept := kept, calls := w.calls + 1 }.kept = List.count (some x) kept := rfl
          simp only [PObs.ptr.injEq, reduceCtorEq, if_false]
          omega
        · simp [makePoolWithNew] at hf
  have := key ops PWorld.empty
  simpa [PWorld.empty] using this

/-- A `sync.Pool` that drops the second of its objects in every call and takes the first it has. -/
def sampleRt : PoolRt := { drop := fun _ i => i == 1, pick := fun _ => 0 }

example : Lawful [] [.get, .get, .alloc, .put (some 0), .put (some 2), .get, .get] (PWorld.empty.run sampleRt (makePool newT) newT [.get, .get, .alloc, .put (some 0), .put (some 2), .get, .get]) ∧
    PWorld.empty.run sampleRt (makePool newT) newT [.get, .get, .alloc, .put (some 0), .put (some 2), .get, .get]
      = [.ptr (some 0), .ptr (some 1), .ptr (some 2), .unit, .unit, .ptr (some 2), .ptr (some 3)] := by
  refine ⟨?_, by decide⟩
  have : PWorld.empty.run sampleRt (makePool newT) newT [.get, .get, .alloc, .put (some 0), .put (some 2), .get, .get]
      = [.ptr (some 0), .ptr (some 1), .ptr (some 2), .unit, .unit, .ptr (some 2), .ptr (some 3)] := by decide
  rw [this]
  simp [Lawful]

/-- C81 does not hold for types of size 0: two calls of `Get` may return the same pointer. -/
theorem C81_zero_size : ¬ ∀ (rt : PoolRt) (ops : List POp), Lawful [] ops (PWorld.empty.run rt (makePool newT0) newT0 ops) →
    Exclusive [] ops (PWorld.empty.run rt (makePool newT0) newT0 ops) := by
  intro h
  have e : PWorld.empty.run sampleRt (makePool newT0) newT0 [.get, .get] = [.ptr (some 0), .ptr (some 0)] := by decide
  have := h sampleRt [.get, .get]
  rw [e] at this
  simp [Lawful, Exclusive] at this

/-- C81: nor for programs that put the same object twice. -/
theorem C81_double_put : ¬ ∀ (rt : PoolRt) (ops : List POp), Exclusive [] ops (PWorld.empty.run rt (makePool newT) newT ops) := by
  intro h
  have e : PWorld.empty.run { drop := fun _ _ => false, pick := fun _ => 0 } (makePool newT) newT [.get, .put (some 0), .put (some 0), .get, .get]
      = [.ptr (some 0), .unit, .unit, .ptr (some 0), .ptr (some 0)] := by decide
  have := h { drop := fun _ _ => false, pick := fun _ => 0 } [.get, .put (some 0), .put (some 0), .get, .get]
  rw [e] at this
  simp [Exclusive] at this

end Stl4go
