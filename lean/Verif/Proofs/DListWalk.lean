import Verif.Spec.DListCallback
/-! # Walks of particular callbacks -/
namespace Stl4go
variable {T α σ : Type} [GoZero T]

/-- The loop at an element, for a callback given the value that always goes on. -/
theorem DWalk.loop_live (cb : σ → T → DProg T σ) (fuel : Nat) (t : σ) (w : DWalk T) (v : T) (he : w.elem = some v) :
    DWalk.loop (goOn (byValue cb)) (fuel + 1) t w = match (cb t v).spec w with
      | .ok t w => DWalk.loop (goOn (byValue cb)) fuel t w.next
      | .panic w => .panic w
      | .diverge => .diverge := by
  have hs : ∀ (p : DProg T σ) (w : DWalk T), (p.bind (fun t => .ret (t, true)) : DProg T (σ × Bool)).spec w = match p.spec w with
      | .ok t w => .ok (t, true) w
      | .panic w => .panic w
      | .diverge => .diverge := by
    intro p
    induction p with
    | ret a => intro w; rfl
    | panic => intro w; rfl
    | hang => intro w; rfl
    | call op k ih =>
      intro w
      simp only [DProg.bind, DProg.spec]
      cases (Deque.step w.items op).1 <;> simp only [ih]
    | load k ih =>
      intro w
      simp only [DProg.bind, DProg.spec]
      cases w.elem <;> simp only [ih]
    | store v k ih => intro w; simp only [DProg.bind, DProg.spec, ih]
  have hend : w.atEnd = false := by
    obtain ⟨s, c⟩ := w
    cases c with
    | «at» k =>
      simp only [DWalk.elem] at he
      have : k < s.length := by
        rcases Nat.lt_or_ge k s.length with h | h
        · exact h
        · rw [List.getElem?_eq_none h] at he; cases he
      simpa [DWalk.atEnd] using this
    | _ => rfl
  have hnil : w.cur ≠ .nil := by
    obtain ⟨s, c⟩ := w
    rintro rfl
    simp [DWalk.elem] at he
  simp only [DWalk.loop, hend, Bool.false_eq_true, if_false, goOn, byValue, DProg.bind, DProg.spec, he, hs]
  cases (cb t v).spec w <;> rfl

theorem DWalk.loop_end (cb : σ → DProg T (σ × Bool)) (fuel : Nat) (t : σ) (w : DWalk T) (he : w.atEnd = true) :
    DWalk.loop cb (fuel + 1) t w = .ok t w := by simp [DWalk.loop, he]

theorem pushes_spec (vs : List T) (p : DProg T α) : ∀ (s : List T) (k : Nat), k < s.length → (pushes vs p).spec ⟨s, .at k⟩ = p.spec ⟨s ++ vs, .at k⟩ := by
  induction vs with
  | nil => intro s k _; simp [pushes]
  | cons v vs ih =>
    intro s k hk
    simp only [pushes, DProg.spec, Deque.step, DCur.after, hk, if_true]
    rw [ih _ _ (by simp; omega)]
    simp

/-- The worklist as a function. -/
def worklist (g : T → List T) : Nat → List T → Option (List T)
  | 0, _ => none
  | _ + 1, [] => some []
  | n + 1, v :: q => (worklist g n (q ++ g v)).map (v :: ·)

omit [GoZero T] in
theorem worklist_sound {g : T → List T} : ∀ {n : Nat} {q vis : List T}, worklist g n q = some vis → Worklist g q vis
  | 0, _, _, h => by simp [worklist] at h
  | n + 1, [], vis, h => by simp [worklist] at h; subst h; exact .nil
  | n + 1, v :: q, vis, h => by
    simp only [worklist, Option.map_eq_some_iff] at h
    obtain ⟨r, h1, rfl⟩ := h
    exact .cons (worklist_sound h1)

omit [GoZero T] in
theorem worklist_complete {g : T → List T} {q vis : List T} (h : Worklist g q vis) : ∀ {n : Nat}, vis.length < n → worklist g n q = some vis := by
  induction h with
  | nil => intro n hn; cases n with
    | zero => simp at hn
    | succ n => rfl
  | cons h ih => intro n hn; cases n with
    | zero => simp at hn
    | succ n => simp [worklist, ih (n := n) (by simpa using hn)]

/-- A callback that pushes at the back. -/
theorem DWalk.loop_pushBack (g : T → List T) (fuel : Nat) : ∀ (don q t : List T),
    DWalk.loop (goOn (byValue (fun t v => pushes (g v) (.ret (t ++ [v]))))) fuel t ⟨don ++ q, .at don.length⟩ =
      match worklist g fuel q with
      | none => .diverge
      | some vis => .ok (t ++ vis) ⟨don ++ vis, .at (don ++ vis).length⟩ := by
  induction fuel with
  | zero => intros; rfl
  | succ fuel ih =>
    intro don q t
    cases q with
    | nil => rw [DWalk.loop_end _ _ _ _ (by simp [DWalk.atEnd])]; simp [worklist]
    | cons v q =>
      rw [DWalk.loop_live _ _ _ _ v (by simp [DWalk.elem]), pushes_spec _ _ _ _ (by simp)]
      simp only [DProg.spec, DWalk.next]
      have := ih (don ++ [v]) (q ++ g v) (t ++ [v])
      simp only [List.append_assoc, List.length_append, List.length_singleton, List.singleton_append] at this ⊢
      simp only [List.cons_append]
      rw [this]
      simp only [worklist]
      cases worklist g fuel (q ++ g v) with
      | none => rfl
      | some vis => simp

/-- A callback that pushes one value at the front. -/
theorem DWalk.loop_pushFront (g : T → T) (q : List T) : ∀ (fuel : Nat) (don t : List T), q.length < fuel →
    DWalk.loop (goOn (byValue (fun t v => .call (.pushFront (g v)) (fun _ => .ret (t ++ [v]))))) fuel t ⟨don ++ q, .at don.length⟩ =
      .ok (t ++ q) ⟨(q.map g).reverse ++ don ++ q, .at ((q.map g).reverse ++ don ++ q).length⟩ := by
  induction q with
  | nil =>
    intro fuel don t hf
    cases fuel with
    | zero => simp at hf
    | succ fuel => rw [DWalk.loop_end _ _ _ _ (by simp [DWalk.atEnd])]; simp
  | cons v q ih =>
    intro fuel don t hf
    cases fuel with
    | zero => simp at hf
    | succ fuel =>
      rw [DWalk.loop_live _ _ _ _ v (by simp [DWalk.elem])]
      simp only [DProg.spec, Deque.step, DCur.after, DWalk.next]
      have := ih fuel (g v :: (don ++ [v])) (t ++ [v]) (by simpa using hf)
      simp only [List.append_assoc, List.length_append, List.cons_append, List.length_cons, List.nil_append, List.length_nil, Nat.zero_add,
        List.map_cons, List.reverse_cons] at this ⊢
      rw [this]

/-- A callback that clears the list, from its second round on. -/
theorem DWalk.loop_clear (rest : List T) : ∀ (fuel : Nat) (v : T) (t : List T), rest.length + 1 < fuel →
    DWalk.loop (goOn (byValue (fun t v => .call .clear (fun _ => .ret (t ++ [v]))))) fuel t ⟨[], .left v rest⟩ =
      .ok (t ++ v :: rest) ⟨[], .at 0⟩ := by
  induction rest with
  | nil =>
    intro fuel v t hf
    match fuel, hf with
    | fuel + 2, _ =>
      rw [DWalk.loop_live _ _ _ _ v rfl]
      simp only [DProg.spec, Deque.step, DCur.after, DWalk.next]
      rw [DWalk.loop_end _ _ _ _ (by simp [DWalk.atEnd])]
      rfl
  | cons u rest ih =>
    intro fuel v t hf
    cases fuel with
    | zero => simp at hf
    | succ fuel =>
      rw [DWalk.loop_live _ _ _ _ v rfl]
      simp only [DProg.spec, Deque.step, DCur.after, DWalk.next]
      rw [ih fuel u (t ++ [v]) (by simpa using hf)]
      simp

/-- The loop at nil. -/
theorem DWalk.loop_nil (cb : σ → DProg T (σ × Bool)) (fuel : Nat) (t : σ) (s : List T) : DWalk.loop cb (fuel + 1) t ⟨s, .nil⟩ = .panic ⟨s, .nil⟩ := rfl

/-- A callback that pops at the back: rounds remain as long as the loop and the end of the list do not meet. -/
theorem DWalk.loop_popBack (m : Nat) : ∀ (fuel : Nat) (s t : List T) (k : Nat), s.length = k + m → m < fuel →
    DWalk.loop (goOn (byValue (fun t v => .call .popBack (fun _ => .ret (t ++ [v]))))) fuel t ⟨s, .at k⟩ =
      if m % 2 = 0 then .ok (t ++ (s.drop k).take (m / 2)) ⟨s.take (k + m / 2), .at (k + m / 2)⟩
      else .panic ⟨s.take (k + m / 2), .nil⟩ := by
  induction m using Nat.strongRecOn with
  | _ m ih =>
    intro fuel s t k hs hf
    cases fuel with
    | zero => omega
    | succ fuel =>
      by_cases hm : m = 0
      · subst hm
        rw [DWalk.loop_end _ _ _ _ (by simp [DWalk.atEnd]; omega)]
        simp [List.take_of_length_le (show s.length ≤ k by omega)]
      · have hk : k < s.length := by omega
        have hne : s ≠ [] := by rintro rfl; simp at hk
        rw [DWalk.loop_live _ _ _ _ s[k] (by simp [DWalk.elem])]
        simp only [DProg.spec, Deque.step, DCur.after, List.getLast?_eq_some_getLast hne]
        by_cases h1 : m = 1
        · subst h1
          rw [if_pos (by omega)]
          cases fuel with
          | zero => omega
          | succ fuel =>
            simp only [DWalk.next]
            rw [DWalk.loop_nil]
            simp [List.dropLast_eq_take, hs]
        · rw [if_neg (by omega), if_neg (by omega)]
          simp only [DWalk.next]
          rw [ih (m - 2) (by omega) fuel s.dropLast (t ++ [s[k]]) (k + 1) (by rw [List.length_dropLast]; omega) (by omega)]
          have e1 : (m - 2) % 2 = m % 2 := by omega
          have e2 : k + 1 + (m - 2) / 2 = k + m / 2 := by omega
          have e3 : s.dropLast.take (k + m / 2) = s.take (k + m / 2) := by
            rw [List.dropLast_eq_take, List.take_take, Nat.min_eq_left (by omega)]
          rw [e1, e2, e3]
          have e4 : [s[k]] ++ (s.dropLast.drop (k + 1)).take ((m - 2) / 2) = (s.drop k).take (m / 2) := by
            rw [List.drop_eq_getElem_cons hk, show m / 2 = (m - 2) / 2 + 1 by omega, List.take_succ_cons, List.singleton_append]
            congr 1
            rw [List.dropLast_eq_take, List.drop_take, List.take_take, Nat.min_eq_left (by omega)]
          rw [List.append_assoc, e4]

end Stl4go
