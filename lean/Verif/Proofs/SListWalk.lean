import Verif.Proofs.SListCallback
import Verif.Proofs.DListWalk
/-! # Particular callbacks of `SList.ForEach`, on the specification -/
namespace Stl4go
variable {T α σ : Type}

theorem LProg.goOn_spec (p : LProg T σ) : ∀ w : LWalk T, (p.bind (fun t => .ret (t, true)) : LProg T (σ × Bool)).spec w = match p.spec w with
    | .ok t w => .ok (t, true) w
    | .panic w => .panic w
    | .diverge => .diverge := by
  induction p with
  | ret a => intro w; rfl
  | panic => intro w; rfl
  | hang => intro w; rfl
  | call i op k ih =>
    intro w
    simp only [LProg.bind, LProg.spec]
    cases (LSeq.step (w.lists i) op).1 <;> simp only [ih]
  | load k ih =>
    intro w
    simp only [LProg.bind, LProg.spec]
    cases w.rest <;> simp only [ih]
  | store v k ih => intro w; simp only [LProg.bind, LProg.spec, ih]

theorem LWalk.loop_live (cb : σ → T → LProg T σ) (fuel : Nat) (t : σ) (w : LWalk T) (v : T) (r : List T) (he : w.rest = v :: r) :
    LWalk.loop (LProg.goOn (LProg.byValue cb)) (fuel + 1) t w = match (cb t v).spec w with
      | .ok t w => (match w.cur.next (w.lists w.own) with
        | some c => LWalk.loop (LProg.goOn (LProg.byValue cb)) fuel t { w with cur := c }
        | none => .panic w)
      | .panic w => .panic w
      | .diverge => .diverge := by
  simp only [LWalk.loop, he, LProg.goOn, LProg.byValue]
  rw [LProg.goOn_spec]
  simp only [LProg.spec, he]
  cases (cb t v).spec w <;> rfl

theorem LWalk.loop_end (cb : σ → LProg T (σ × Bool)) (fuel : Nat) (t : σ) (w : LWalk T) (he : w.rest = []) :
    LWalk.loop cb (fuel + 1) t w = .ok t w := by simp [LWalk.loop, he]

theorem LCur.start_rest (s : List T) : (LCur.start s).rest s = s := by
  cases s <;> simp [LCur.start, LCur.rest]

/-- The lists with list `i` replaced. -/
def putL (s : Nat → List T) (i : Nat) (l : List T) : Nat → List T := fun j => if j = i then l else s j

theorem putL_self (s : Nat → List T) (i : Nat) (l : List T) : putL s i l i = l := by simp [putL]
theorem putL_ne (s : Nat → List T) {i j : Nat} (h : j ≠ i) (l : List T) : putL s i l j = s j := by simp [putL, h]
theorem putL_putL (s : Nat → List T) (i : Nat) (l l' : List T) : putL (putL s i l) i l' = putL s i l' := by
  funext j; simp only [putL]; split <;> rfl
theorem putL_id (s : Nat → List T) (i : Nat) : putL s i (s i) = s := by
  funext j; simp only [putL]; split
  · rename_i h; rw [h]
  · rfl

theorem LWalk.op_eq (w : LWalk T) (i : Nat) (op : LOp T) : w.op i op =
    ⟨putL w.lists i (LSeq.step (w.lists i) op).2, w.own, if i = w.own then w.cur.after (w.lists i) op else w.cur⟩ := rfl

/-- A callback that pops at the front. -/
theorem LWalk.loop_popFront (i : Nat) (q : List T) : ∀ (fuel : Nat) (s : Nat → List T) (t : List T), s i = q → q.length < fuel →
    LWalk.loop (LProg.goOn (LProg.byValue (fun t v => .call i .popFront (fun _ => .ret (t ++ [v]))))) fuel t ⟨s, i, LCur.start q⟩ =
      .ok (t ++ q) ⟨putL s i [], i, {}⟩ := by
  induction q with
  | nil =>
    intro fuel s t hs hf
    cases fuel with
    | zero => simp at hf
    | succ fuel =>
      rw [LWalk.loop_end _ _ _ _ (by simp [LWalk.rest, LCur.start, LCur.rest])]
      rw [← hs, putL_id]; simp [LCur.start, hs]
  | cons v q ih =>
    intro fuel s t hs hf
    cases fuel with
    | zero => simp at hf
    | succ fuel =>
      rw [LWalk.loop_live _ _ _ _ v q (by simp only [LWalk.rest, hs]; exact LCur.start_rest _)]
      have e : (LProg.call i .popFront (fun _ => .ret (t ++ [v])) : LProg T (List T)).spec ⟨s, i, LCur.start (v :: q)⟩ =
          .ok (t ++ [v]) ⟨putL s i q, i, ⟨[v], if (v :: q).length ≤ 1 then none else some 0⟩⟩ := by
        simp [LProg.spec, hs, LSeq.step, LWalk.op_eq, LCur.after, LCur.start]
      rw [e]
      simp only [LCur.next]
      have hst : (⟨[], if (v :: q).length ≤ 1 then none else some 0⟩ : LCur T) = LCur.start q := by
        cases q <;> simp [LCur.start]
      rw [hst, ih fuel (putL s i q) (t ++ [v]) (putL_self _ _ _) (by simpa using hf), putL_putL]
      simp

/-- A callback that moves the first element to the front of another list. -/
theorem LWalk.loop_transfer (i j : Nat) (hij : j ≠ i) (q : List T) : ∀ (fuel : Nat) (s : Nat → List T) (t : List T), s i = q → q.length < fuel →
    LWalk.loop (LProg.goOn (LProg.byValue (fun t v => .call i .popFront (fun _ => .call j (.pushFront v) (fun _ => .ret (t ++ [v])))))) fuel t
      ⟨s, i, LCur.start q⟩ = .ok (t ++ q) ⟨putL (putL s j (q.reverse ++ s j)) i [], i, {}⟩ := by
  induction q with
  | nil =>
    intro fuel s t hs hf
    cases fuel with
    | zero => simp at hf
    | succ fuel =>
      rw [LWalk.loop_end _ _ _ _ (by simp [LWalk.rest, LCur.start, LCur.rest])]
      simp only [List.reverse_nil, List.nil_append]
      rw [putL_id, ← hs, putL_id]; simp [LCur.start, hs]
  | cons v q ih =>
    intro fuel s t hs hf
    cases fuel with
    | zero => simp at hf
    | succ fuel =>
      rw [LWalk.loop_live _ _ _ _ v q (by simp only [LWalk.rest, hs]; exact LCur.start_rest _)]
      have e : (LProg.call i .popFront (fun _ => .call j (.pushFront v) (fun _ => .ret (t ++ [v]))) : LProg T (List T)).spec ⟨s, i, LCur.start (v :: q)⟩ =
          .ok (t ++ [v]) ⟨putL (putL s i q) j (v :: s j), i, ⟨[v], if (v :: q).length ≤ 1 then none else some 0⟩⟩ := by
        simp [LProg.spec, hs, LSeq.step, LWalk.op_eq, LCur.after, LCur.start, hij, putL_ne]
      rw [e]
      simp only [LCur.next]
      have hst : (⟨[], if (v :: q).length ≤ 1 then none else some 0⟩ : LCur T) = LCur.start q := by
        cases q <;> simp [LCur.start]
      have hi : putL (putL s i q) j (v :: s j) i = q := by rw [putL_ne _ (Ne.symm hij), putL_self]
      rw [hst, ih fuel _ (t ++ [v]) hi (by simpa using hf), putL_self, putL_putL]
      simp only [List.append_assoc, List.singleton_append, List.reverse_cons, Res.ok.injEq, true_and, LWalk.mk.injEq, and_true]
      funext k
      simp only [putL]
      by_cases h1 : k = i <;> by_cases h2 : k = j <;> simp [h1, h2]

/-- A callback that takes all elements off the list, or assigns a new list to its variable. -/
theorem LWalk.loop_detach (i : Nat) (op : LOp T) (new : List T) (hs : ∀ s, LSeq.step s op = (.unit, new)) (r : List T) :
    ∀ (fuel : Nat) (s : Nat → List T) (t : List T), s i = new → r.length < fuel →
    LWalk.loop (LProg.goOn (LProg.byValue (fun t v => .call i op (fun _ => .ret (t ++ [v]))))) fuel t ⟨s, i, ⟨r, none⟩⟩ =
      .ok (t ++ r) ⟨s, i, {}⟩ := by
  induction r with
  | nil =>
    intro fuel s t _ hf
    cases fuel with
    | zero => simp at hf
    | succ fuel => rw [LWalk.loop_end _ _ _ _ (by simp [LWalk.rest, LCur.rest])]; simp
  | cons v r ih =>
    intro fuel s t h hf
    cases fuel with
    | zero => simp at hf
    | succ fuel =>
      rw [LWalk.loop_live _ _ _ _ v r (by simp [LWalk.rest, LCur.rest])]
      have e : (LProg.call i op (fun _ => .ret (t ++ [v])) : LProg T (List T)).spec ⟨s, i, ⟨v :: r, none⟩⟩ = .ok (t ++ [v]) ⟨s, i, ⟨v :: r, none⟩⟩ := by
        simp only [LProg.spec, hs, LWalk.op_eq, LCur.after, if_true]
        rw [← h, putL_id]
      rw [e]
      simp only [LCur.next]
      rw [ih fuel s (t ++ [v]) h (by simpa using hf)]
      simp

theorem LWalk.run_detach (i : Nat) (op : LOp T) (new : List T) (hs : ∀ s, LSeq.step s op = (.unit, new))
    (ha : ∀ (s : List T) (c : LCur T) k, c.pos = some k → c.after s op = ⟨c.pre ++ s.drop k, none⟩) (fuel : Nat) (s : Nat → List T)
    (hf : (s i).length < fuel) (hne : s i ≠ []) :
    LWalk.run fuel i (LProg.goOn (LProg.byValue (fun t v => .call i op (fun _ => .ret (t ++ [v]))))) [] s = .ok (s i) ⟨putL s i new, i, {}⟩ := by
  cases fuel with
  | zero => simp at hf
  | succ fuel =>
    cases hq : s i with
    | nil => exact absurd hq hne
    | cons v q =>
      simp only [LWalk.run]
      rw [LWalk.loop_live _ _ _ _ v q (by simp only [LWalk.rest, hq]; exact LCur.start_rest _)]
      have e : (LProg.call i op (fun _ => .ret ([] ++ [v])) : LProg T (List T)).spec ⟨s, i, LCur.start (s i)⟩ =
          .ok [v] ⟨putL s i new, i, ⟨v :: q, none⟩⟩ := by
        simp only [LProg.spec, hs, LWalk.op_eq, if_true, hq]
        rw [ha _ _ 0 (by simp [LCur.start])]
        simp [LCur.start]
      rw [e]
      simp only [LCur.next]
      rw [LWalk.loop_detach i op new hs q fuel _ [v] (putL_self _ _ _) (by rw [hq] at hf; simpa using hf)]
      simp

theorem LProg.pushes_spec (i : Nat) (vs : List T) (p : LProg T α) : ∀ (s : Nat → List T) (c : LCur T),
    (LProg.pushes i vs p).spec ⟨s, i, c⟩ = p.spec ⟨putL s i (s i ++ vs), i, c⟩ := by
  induction vs with
  | nil => intro s c; simp [LProg.pushes, putL_id]
  | cons v vs ih =>
    intro s c
    have hc : c.after (s i) (.pushBack v) = c := by
      simp only [LCur.after]; split
      · rfl
      · rfl
    simp only [LProg.pushes, LProg.spec, LSeq.step, LWalk.op_eq, if_true, hc]
    rw [ih, putL_self, putL_putL]
    simp

/-- The iterator at index `don.length` of `don ++ q`. -/
def curAt (don q : List T) : LCur T := ⟨[], if q.isEmpty then none else some don.length⟩

theorem curAt_next (don q : List T) (v : T) (vs : List T) : (curAt don (v :: q)).next (don ++ v :: q ++ vs) = some (curAt (don ++ [v]) (q ++ vs)) := by
  simp only [LCur.next, curAt, List.isEmpty_cons, Bool.false_eq_true, if_false]
  cases h : q ++ vs with
  | nil => simp at h; simp [h]
  | cons x y =>
    have : (q ++ vs).length = y.length + 1 := by rw [h]; simp
    have hlt : don.length + 1 < (don ++ v :: q ++ vs).length := by
      simp only [List.length_append, List.length_cons] at this ⊢; omega
    simp only [hlt, if_true]
    simp

theorem curAt_rest (don q : List T) : (curAt don q).rest (don ++ q) = q := by
  cases q <;> simp [curAt, LCur.rest]

/-- A callback that pushes at the back. -/
theorem LWalk.loop_pushBack (i : Nat) (g : T → List T) (fuel : Nat) : ∀ (s : Nat → List T) (don q t : List T), s i = don ++ q →
    LWalk.loop (LProg.goOn (LProg.byValue (fun t v => LProg.pushes i (g v) (.ret (t ++ [v]))))) fuel t ⟨s, i, curAt don q⟩ =
      match worklist g fuel q with
      | none => .diverge
      | some vis => .ok (t ++ vis) ⟨putL s i (don ++ vis), i, {}⟩ := by
  induction fuel with
  | zero => intros; rfl
  | succ fuel ih =>
    intro s don q t hs
    cases q with
    | nil =>
      rw [LWalk.loop_end _ _ _ _ (by simp [LWalk.rest, curAt, LCur.rest])]
      simp only [worklist]
      rw [← hs, putL_id]; simp [curAt]
    | cons v q =>
      rw [LWalk.loop_live _ _ _ _ v q (by simp only [LWalk.rest, hs]; exact curAt_rest _ _)]
      have e := LProg.pushes_spec i (g v) (.ret (t ++ [v])) s (curAt don (v :: q))
      simp only [LProg.spec] at e
      rw [e]
      simp only [putL_self, hs, curAt_next]
      rw [ih (putL s i (don ++ v :: q ++ g v)) (don ++ [v]) (q ++ g v) (t ++ [v]) (by rw [putL_self]; simp)]
      simp only [worklist, putL_putL]
      cases worklist g fuel (q ++ g v) with
      | none => rfl
      | some vis => simp

/-- A callback that pushes to another list. -/
theorem LWalk.loop_append (i j : Nat) (hij : j ≠ i) (g : T → T) (q : List T) : ∀ (fuel : Nat) (s : Nat → List T) (don t : List T),
    s i = don ++ q → q.length < fuel →
    LWalk.loop (LProg.goOn (LProg.byValue (fun t v => .call j (.pushBack (g v)) (fun _ => .ret (t ++ [v]))))) fuel t ⟨s, i, curAt don q⟩ =
      .ok (t ++ q) ⟨putL s j (s j ++ q.map g), i, {}⟩ := by
  induction q with
  | nil =>
    intro fuel s don t hs hf
    cases fuel with
    | zero => simp at hf
    | succ fuel =>
      rw [LWalk.loop_end _ _ _ _ (by simp [LWalk.rest, curAt, LCur.rest])]
      simp [curAt, putL_id]
  | cons v q ih =>
    intro fuel s don t hs hf
    cases fuel with
    | zero => simp at hf
    | succ fuel =>
      rw [LWalk.loop_live _ _ _ _ v q (by simp only [LWalk.rest, hs]; exact curAt_rest _ _)]
      have e : (LProg.call j (.pushBack (g v)) (fun _ => .ret (t ++ [v])) : LProg T (List T)).spec ⟨s, i, curAt don (v :: q)⟩ =
          .ok (t ++ [v]) ⟨putL s j (s j ++ [g v]), i, curAt don (v :: q)⟩ := by
        simp [LProg.spec, LSeq.step, LWalk.op_eq, hij]
      rw [e]
      have hi : putL s j (s j ++ [g v]) i = don ++ v :: q := by rw [putL_ne _ (Ne.symm hij), hs]
      have hn := curAt_next don q v []
      simp only [List.append_nil] at hn
      simp only [hi, hn]
      rw [ih fuel _ (don ++ [v]) (t ++ [v]) (by rw [hi]; simp) (by simpa using hf), putL_self, putL_putL]
      simp

theorem start_curAt (s : List T) : LCur.start s = curAt [] s := by cases s <;> simp [LCur.start, curAt]

/-- A callback that reverses the list: its first element becomes the last. -/
theorem LWalk.run_reverse (i : Nat) (fuel : Nat) (s : Nat → List T) (v : T) (q : List T) (hs : s i = v :: q) :
    LWalk.run (fuel + 2) i (LProg.goOn (LProg.byValue (fun t v => .call i .reverse (fun _ => .ret (t ++ [v]))))) [] s =
      .ok [v] ⟨putL s i (s i).reverse, i, {}⟩ := by
  simp only [LWalk.run]
  rw [LWalk.loop_live _ _ _ _ v q (by simp only [LWalk.rest, hs]; exact LCur.start_rest _)]
  have e : (LProg.call i .reverse (fun _ => .ret ([] ++ [v])) : LProg T (List T)).spec ⟨s, i, LCur.start (s i)⟩ =
      .ok [v] ⟨putL s i (s i).reverse, i, ⟨[], some q.length⟩⟩ := by
    simp [LProg.spec, LSeq.step, LWalk.op_eq, hs, LCur.after, LCur.start]
  rw [e]
  have hn : (⟨[], some q.length⟩ : LCur T).next (putL s i (s i).reverse i) = some {} := by
    rw [putL_self, hs]; simp [LCur.next]
  simp only [hn]
  rw [LWalk.loop_end _ _ _ _ (by simp [LWalk.rest, LCur.rest])]

end Stl4go
