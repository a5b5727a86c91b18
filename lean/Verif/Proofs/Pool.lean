import Verif.Spec.Pool
/-! # Lemmas about `Pool` -/
namespace Stl4go

theorem keepFrom_sublist (drop : Nat → Bool) (l : List PtrT) : ∀ i, (keepFrom drop i l).Sublist l := by
  induction l with
  | nil => intro i; exact .refl _
  | cons x l ih =>
    intro i
    simp only [keepFrom]
    split
    · exact (ih _).cons x
    · exact (ih _).cons_cons x

theorem keepFrom_congr (d d' : Nat → Bool) (l : List PtrT) : ∀ i, (∀ k, i ≤ k → d k = d' k) → keepFrom d i l = keepFrom d' i l := by
  induction l with
  | nil => intro i _; rfl
  | cons x l ih =>
    intro i h
    simp only [keepFrom, h i (Nat.le_refl _), ih (i + 1) (fun k hk => h k (by omega))]

theorem keepFrom_any {kept l : List PtrT} (h : kept.Sublist l) : ∀ i, ∃ d, keepFrom d i l = kept := by
  induction h with
  | slnil => exact fun i => ⟨fun _ => false, rfl⟩
  | @cons kept l x _ ih =>
    intro i
    obtain ⟨d, e⟩ := ih (i + 1)
    refine ⟨fun k => if k = i then true else d k, ?_⟩
    simp only [keepFrom, if_true]
    rw [← e]
    exact keepFrom_congr _ _ _ _ (fun k hk => if_neg (by omega))
  | @cons_cons kept l x _ ih =>
    intro i
    obtain ⟨d, e⟩ := ih (i + 1)
    refine ⟨fun k => if k = i then false else d k, ?_⟩
    simp only [keepFrom, if_true, Bool.false_eq_true, if_false]
    rw [← e]
    exact congrArg _ (keepFrom_congr _ _ _ _ (fun k hk => if_neg (by omega)))

theorem eraseIdx_perm {α : Type} : ∀ (l : List α) (i : Nat) (x : α), l[i]? = some x → (x :: l.eraseIdx i).Perm l := by
  intro l
  induction l with
  | nil => intro i x h; simp at h
  | cons a l ih =>
    intro i x h
    cases i with
    | zero =>
      simp only [List.getElem?_cons_zero, Option.some.injEq] at h
      subst h
      exact .refl _
    | succ i =>
      simp only [List.getElem?_cons_succ] at h
      rw [List.eraseIdx_cons_succ]
      exact (List.Perm.swap a x _).trans ((ih i x h).cons a)

/-- `Get` takes an object the pool still has, or asks `New`, or returns nil. -/
theorem poolGet_cases (rt : PoolRt) (p : PoolV) (w : PWorld) : ∃ kept, kept.Sublist w.kept ∧
    ((∃ x rest, (x :: rest).Perm kept ∧ poolGet rt p w = .ok x { w with kept := rest, calls := w.calls + 1 }) ∨
     (p.new = none ∧ poolGet rt p w = .ok none { w with kept := kept, calls := w.calls + 1 }) ∨
     (∃ f, p.new = some f ∧ poolGet rt p w = (do let i ← f; match i with | none => return none | some x => return x) { w with kept := kept, calls := w.calls + 1 })) := by
  refine ⟨keepFrom (rt.drop w.calls) 0 w.kept, keepFrom_sublist _ _ _, ?_⟩
  simp only [poolGet, GoM.bind_def, syncGet]
  cases h : (keepFrom (rt.drop w.calls) 0 w.kept)[rt.pick w.calls]? with
  | some x => exact Or.inl ⟨x, _, eraseIdx_perm _ _ _ h, rfl⟩
  | none =>
    right
    cases hp : p.new with
    | none => exact Or.inl ⟨rfl, rfl⟩
    | some f => exact Or.inr ⟨f, rfl, rfl⟩

/-- What the pool and the program have: different objects, allocated, not nil. -/
structure PInv (held : List PtrT) (w : PWorld) : Prop where
  nodup : (held ++ w.kept).Nodup
  alloc : ∀ x ∈ held ++ w.kept, ∃ n, x = some n ∧ n < w.next

theorem PInv.perm {held kept : List PtrT} {w : PWorld} (h : PInv held w) {next calls : Nat} {held' : List PtrT} (hn : w.next ≤ next)
    (hs : ∃ l, l.Sublist (held ++ w.kept) ∧ (held' ++ kept).Perm l) : PInv held' { next := next, kept := kept, calls := calls } := by
  obtain ⟨l, hl, hp⟩ := hs
  refine ⟨hp.nodup_iff.2 (h.nodup.sublist hl), fun x hx => ?_⟩
  obtain ⟨n, e, hlt⟩ := h.alloc x (hl.subset (hp.mem_iff.1 hx))
  exact ⟨n, e, Nat.lt_of_lt_of_le hlt hn⟩

theorem PInv.new {held : List PtrT} {w : PWorld} (h : PInv held w) :
    PInv (some w.next :: held) { w with next := w.next + 1 } ∧ some w.next ∉ held := by
  have hn : some w.next ∉ held ++ w.kept := by
    intro hx
    obtain ⟨n, e, hlt⟩ := h.alloc _ hx
    injection e with e
    omega
  refine ⟨⟨List.nodup_cons.2 ⟨hn, h.nodup⟩, fun x hx => ?_⟩, fun hx => hn (List.mem_append_left _ hx)⟩
  rcases List.mem_cons.1 hx with rfl | hx
  · exact ⟨_, rfl, by simp⟩
  · obtain ⟨n, e, hlt⟩ := h.alloc x hx
    exact ⟨n, e, by simp; omega⟩

theorem PInv.get {held : List PtrT} {w : PWorld} (h : PInv held w) (rt : PoolRt) :
    ∃ x w', poolGet rt (makePool newT) w = .ok x w' ∧ x ≠ none ∧ x ∉ held ∧ PInv (x :: held) w' := by
  obtain ⟨kept, hs, hc⟩ := poolGet_cases rt (makePool newT) w
  rcases hc with ⟨x, rest, hp, e⟩ | ⟨hp, _⟩ | ⟨f, hf, e⟩
  · have hx : x ∈ w.kept := hs.subset (hp.mem_iff.1 (by simp))
    refine ⟨x, _, e, ?_, ?_, ?_⟩
    · obtain ⟨n, e, _⟩ := h.alloc x (List.mem_append_right _ hx)
      rw [e]; simp
    · intro hh
      exact (List.nodup_append.1 h.nodup).2.2 x hh x hx rfl
    · refine h.perm (Nat.le_refl _) ⟨held ++ kept, List.Sublist.append (.refl _) hs, ?_⟩
      exact List.perm_middle.symm.trans (hp.append_left held)
  · simp [makePool] at hp
  · simp only [makePool, Option.some.injEq] at hf
    subst hf
    have h' : PInv held { w with kept := kept, calls := w.calls + 1 } :=
      h.perm (Nat.le_refl _) ⟨held ++ kept, List.Sublist.append (.refl _) hs, .refl _⟩
    refine ⟨some w.next, _, e, by simp, h'.new.2, h'.new.1⟩

theorem PInv.put {held : List PtrT} {w : PWorld} (h : PInv held w) (rt : PoolRt) (x : PtrT) (hx : x = none ∨ x ∈ held) :
    ∃ w', poolPut rt x w = .ok () w' ∧ PInv (held.erase x) w' := by
  cases x with
  | none =>
    refine ⟨w, rfl, ?_⟩
    rw [List.erase_of_not_mem]
    · exact h
    · intro hh
      obtain ⟨n, e, _⟩ := h.alloc none (List.mem_append_left _ hh)
      cases e
  | some n =>
    have hm : some n ∈ held := by
      rcases hx with e | e
      · cases e
      · exact e
    refine ⟨_, rfl, ?_⟩
    refine h.perm (Nat.le_refl _) ⟨held ++ keepFrom (rt.drop w.calls) 0 w.kept, List.Sublist.append (.refl _) (keepFrom_sublist _ _ _), ?_⟩
    refine List.perm_middle.trans ?_
    exact (List.perm_cons_erase hm).symm.append_right _

theorem run_exclusive (rt : PoolRt) (ops : List POp) : ∀ (held : List PtrT) (w : PWorld), PInv held w →
    Lawful held ops (w.run rt (makePool newT) newT ops) → Exclusive held ops (w.run rt (makePool newT) newT ops) := by
  induction ops with
  | nil => intro held w _ _; rfl
  | cons op ops ih =>
    intro held w h hl
    cases op with
    | alloc =>
      simp only [PWorld.run, POp.call, newT, Exclusive, Lawful] at hl ⊢
      exact ⟨by simp, h.new.2, ih _ _ h.new.1 hl⟩
    | get =>
      obtain ⟨x, w', e, h1, h2, h3⟩ := h.get rt
      simp only [PWorld.run, POp.call, e, Exclusive, Lawful] at hl ⊢
      exact ⟨h1, h2, ih _ _ h3 hl⟩
    | put x =>
      simp only [PWorld.run, Lawful] at hl
      obtain ⟨w', e, h1⟩ := h.put rt x hl.1
      simp only [PWorld.run, POp.call, e, Exclusive] at hl ⊢
      exact ih _ _ h1 hl.2

/-! ## No nil in the pool, whatever the program does -/

theorem call_kept (rt : PoolRt) (p : PoolV) (nw : GoM PWorld PtrT) (hp : ∀ f w r w', p.new = some f → f w = .ok r w' → w'.kept = w.kept)
    (hp2 : ∀ f w w', p.new = some f → f w = .panic w' → w'.kept = w.kept)
    (hn : ∀ w r w', nw w = .ok r w' → w'.kept = w.kept) (hn2 : ∀ w w', nw w = .panic w' → w'.kept = w.kept)
    (op : POp) (w : PWorld) (h : none ∉ w.kept) : none ∉ (op.call rt p nw w).2.kept := by
  cases op with
  | alloc =>
    simp only [POp.call]
    cases e : nw w with
    | ok x w' => simpa [hn _ _ _ e] using h
    | panic w' => simpa [hn2 _ _ e] using h
    | diverge => exact h
  | get =>
    simp only [POp.call]
    obtain ⟨kept, hs, hc⟩ := poolGet_cases rt p w
    rcases hc with ⟨x, rest, hpm, e⟩ | ⟨_, e⟩ | ⟨f, hf, e⟩
    · rw [e]
      exact fun hx => h (hs.subset (hpm.mem_iff.1 (List.mem_cons_of_mem _ hx)))
    · rw [e]
      exact fun hx => h (hs.subset hx)
    · rw [e, GoM.bind_def]
      cases e2 : f { w with kept := kept, calls := w.calls + 1 } with
      | ok i w' =>
        have := hp f _ _ _ hf e2
        cases i with
        | none => simp only [GoM.pure_apply, this]; exact fun hx => h (hs.subset hx)
        | some y => simp only [GoM.pure_apply, this]; exact fun hx => h (hs.subset hx)
      | panic w' =>
        have := hp2 f _ _ hf e2
        simp only [this]; exact fun hx => h (hs.subset hx)
      | diverge => exact h
  | put x =>
    cases x with
    | none => exact h
    | some n =>
      simp only [POp.call, poolPut, ne_eq, reduceCtorEq, not_false_eq_true, if_true, syncPut, List.mem_cons, false_or]
      exact fun hx => h ((keepFrom_sublist _ _ _).subset hx)

end Stl4go
