import Verif.Proofs.DList
/-! # DList: iteration and updates in place -/
namespace Stl4go
variable {T σ : Type}

theorem DInv.split {h : List (DNode T)} {l : DL} {A B : List Nat} {q : Nat} {sA sB : List T} {v : T}
    (i : DInv h l (A ++ q :: B) (sA ++ v :: sB)) (hA : A.length = sA.length) :
    A.map (vl h) = sA.map some ∧ vl h q = some v ∧ B.map (vl h) = sB.map some := by
  have hv := i.vals
  rw [List.map_append, List.map_append] at hv
  have h2 := List.append_inj hv (by simp [hA])
  simp only [List.map_cons, List.cons.injEq] at h2
  exact ⟨h2.1, h2.2.1, h2.2.2⟩

/-- Loading an element node: its value and the next node of the ring. -/
theorem DInv.node {h : List (DNode T)} {l : DL} {A B : List Nat} {q hd : Nat} {sA sB : List T} {v : T}
    (i : DInv h l (A ++ q :: B) (sA ++ v :: sB)) (hA : A.length = sA.length) (hhd : l.head = some hd) :
    q ≠ hd ∧ ∃ b, DS.load (some q) ⟨h, l⟩ = .ok ⟨b, (B ++ [hd]).head?, v⟩ ⟨h, l⟩ := by
  have hq : q ∈ foot l (A ++ q :: B) := by simp [foot]
  constructor
  · rintro rfl
    have := i.nodup
    rw [foot_some _ hhd] at this
    simp at this
  · have hn := Lk.mid (A := A) (B := B) (i.lk hd hhd)
    obtain ⟨_, pvq, _⟩ := view_of_lt (i.bound q hq)
    obtain ⟨w, hw, ld⟩ := DS.load_view (l := l) hn pvq
    rw [(i.split hA).2.1] at hw; injection hw with hw; subst hw
    exact ⟨_, ld⟩

theorem DInv.setVal {h : List (DNode T)} {l : DL} {A B : List Nat} {q : Nat} {sA sB : List T} {v : T}
    (i : DInv h l (A ++ q :: B) (sA ++ v :: sB)) (hA : A.length = sA.length) (w : T) :
    ∃ h', DS.setVal (some q) w ⟨h, l⟩ = .ok () ⟨h', l⟩ ∧ DInv h' l (A ++ q :: B) (sA ++ w :: sB) ∧
      DFrame h h' (foot l (A ++ q :: B)) ∧ h'.length = h.length := by
  have hq : q ∈ foot l (A ++ q :: B) := by simp [foot]
  obtain ⟨h', e, m, o, u, len⟩ := DS.setVal_view (h := h) (l := l) (p := q) w (i.bound q hq)
  obtain ⟨s1, _, s3⟩ := i.split hA
  have hnd : (A ++ q :: B).Nodup := (List.nodup_append.1 i.nodup).2.1
  have hn := List.nodup_append.1 hnd
  refine ⟨h', e, ⟨i.empty, i.nodup, ?_, ?_, ?_, ?_⟩, ⟨by omega, ?_⟩, len⟩
  · intro hd e; exact Lk.congr (fun x _ => m x) (fun x _ => o x) (i.lk hd e)
  · rw [List.map_append, List.map_append, List.map_cons, List.map_cons, u q, if_pos rfl, ← s1, ← s3]
    congr 1
    · apply List.map_congr_left; intro x hx
      rw [u, if_neg]; rintro rfl; exact hn.2.2 x hx x (by simp) rfl
    · congr 1
      apply List.map_congr_left; intro x hx
      rw [u, if_neg]; rintro rfl; exact (List.nodup_cons.1 hn.2.1).1 hx
  · have := i.len; simpa using this
  · intro x hx; rw [len]; exact i.bound x hx
  · intro x _ hx
    have : x ≠ q := by rintro rfl; exact hx hq
    exact ⟨m x, o x, by rw [u, if_neg this]⟩

/-! ## Loops -/

theorem DInv.forEachLoop {h : List (DNode T)} {l : DL} {hd : Nat} (hhd : l.head = some hd) (cb : σ → T → σ) (sB : List T) :
    ∀ {A B : List Nat} {sA : List T} {fuel : Nat} {t : σ}, DInv h l (A ++ B) (sA ++ sB) → A.length = sA.length → B.length < fuel →
    DL.forEachLoop cb fuel (B ++ [hd]).head? t ⟨h, l⟩ = .ok (sB.foldl cb t) ⟨h, l⟩ := by
  induction sB with
  | nil =>
    intro A B sA fuel t i hA hf
    have hB : B = [] := by have := i.length_ids; simp at this; exact List.length_eq_zero_iff.1 (by omega)
    subst hB
    cases fuel with
    | zero => simp at hf
    | succ n => simp [DL.forEachLoop, GoM.bind_def, hhd]
  | cons v sB ih =>
    intro A B sA fuel t i hA hf
    cases B with
    | nil => have := i.length_ids; simp at this; omega
    | cons q B =>
      cases fuel with
      | zero => simp at hf
      | succ n =>
        obtain ⟨hne, b, ld⟩ := i.node hA hhd
        have := ih (A := A ++ [q]) (B := B) (sA := sA ++ [v]) (fuel := n) (t := cb t v) (by simpa using i) (by simp [hA]) (by simp at hf; omega)
        simp [-List.head?_append, DL.forEachLoop, GoM.bind_def, hhd, hne, ld, this]

theorem DInv.forEachIfLoop {h : List (DNode T)} {l : DL} {hd : Nat} (hhd : l.head = some hd) (cb : σ → T → σ × Bool) (sB : List T) :
    ∀ {A B : List Nat} {sA : List T} {fuel : Nat} {t : σ}, DInv h l (A ++ B) (sA ++ sB) → A.length = sA.length → B.length < fuel →
    DL.forEachIfLoop cb fuel (B ++ [hd]).head? t ⟨h, l⟩ = .ok (visitWhile1 cb t sB) ⟨h, l⟩ := by
  induction sB with
  | nil =>
    intro A B sA fuel t i hA hf
    have hB : B = [] := by have := i.length_ids; simp at this; exact List.length_eq_zero_iff.1 (by omega)
    subst hB
    cases fuel with
    | zero => simp at hf
    | succ n => simp [DL.forEachIfLoop, GoM.bind_def, hhd, visitWhile1]
  | cons v sB ih =>
    intro A B sA fuel t i hA hf
    cases B with
    | nil => have := i.length_ids; simp at this; omega
    | cons q B =>
      cases fuel with
      | zero => simp at hf
      | succ n =>
        obtain ⟨hne, b, ld⟩ := i.node hA hhd
        have := ih (A := A ++ [q]) (B := B) (sA := sA ++ [v]) (fuel := n) (t := (cb t v).1) (by simpa using i) (by simp [hA]) (by simp at hf; omega)
        rcases Bool.eq_false_or_eq_true (cb t v).2 with hc | hc <;>
          simp [-List.head?_append, DL.forEachIfLoop, visitWhile1, GoM.bind_def, hhd, hne, ld, hc, this]

theorem DInv.forEachMutableLoop {l : DL} {hd : Nat} (hhd : l.head = some hd) (cb : σ → T → σ × T) (sB : List T) :
    ∀ {h : List (DNode T)} {A B : List Nat} {sA : List T} {fuel : Nat} {t : σ}, DInv h l (A ++ B) (sA ++ sB) → A.length = sA.length →
    B.length < fuel → ∃ h', DL.forEachMutableLoop cb fuel (B ++ [hd]).head? t ⟨h, l⟩ = .ok (updateAll1 cb t sB).1 ⟨h', l⟩ ∧
      DInv h' l (A ++ B) (sA ++ (updateAll1 cb t sB).2) ∧ DFrame h h' (foot l (A ++ B)) := by
  induction sB with
  | nil =>
    intro h A B sA fuel t i hA hf
    have hB : B = [] := by have := i.length_ids; simp at this; exact List.length_eq_zero_iff.1 (by omega)
    subst hB
    cases fuel with
    | zero => simp at hf
    | succ n => exact ⟨h, by simp [DL.forEachMutableLoop, GoM.bind_def, hhd, updateAll1], by simpa [updateAll1] using i, DFrame.refl _ _⟩
  | cons v sB ih =>
    intro h A B sA fuel t i hA hf
    cases B with
    | nil => have := i.length_ids; simp at this; omega
    | cons q B =>
      cases fuel with
      | zero => simp at hf
      | succ n =>
        obtain ⟨hne, b, ld⟩ := i.node hA hhd
        obtain ⟨h1, e1, i1, f1, _⟩ := i.setVal hA (cb t v).2
        obtain ⟨_, b1, ld1⟩ := i1.node hA hhd
        obtain ⟨h2, e2, i2, f2⟩ := ih (h := h1) (A := A ++ [q]) (B := B) (sA := sA ++ [(cb t v).2]) (fuel := n) (t := (cb t v).1)
          (by simpa using i1) (by simp [hA]) (by simp at hf; omega)
        refine ⟨h2, ?_, by simpa [updateAll1] using i2, f1.trans f2 (fun x hx => .inl (by simpa using hx))⟩
        simp [-List.head?_append, DL.forEachMutableLoop, updateAll1, GoM.bind_def, hhd, hne, ld, e1, ld1, e2]

theorem DInv.forEachMutableIfLoop {l : DL} {hd : Nat} (hhd : l.head = some hd) (cb : σ → T → σ × T × Bool) (sB : List T) :
    ∀ {h : List (DNode T)} {A B : List Nat} {sA : List T} {fuel : Nat} {t : σ}, DInv h l (A ++ B) (sA ++ sB) → A.length = sA.length →
    B.length < fuel → ∃ h', DL.forEachMutableIfLoop cb fuel (B ++ [hd]).head? t ⟨h, l⟩ = .ok (updateWhile1 cb t sB).1 ⟨h', l⟩ ∧
      DInv h' l (A ++ B) (sA ++ (updateWhile1 cb t sB).2) ∧ DFrame h h' (foot l (A ++ B)) := by
  induction sB with
  | nil =>
    intro h A B sA fuel t i hA hf
    have hB : B = [] := by have := i.length_ids; simp at this; exact List.length_eq_zero_iff.1 (by omega)
    subst hB
    cases fuel with
    | zero => simp at hf
    | succ n => exact ⟨h, by simp [DL.forEachMutableIfLoop, GoM.bind_def, hhd, updateWhile1], by simpa [updateWhile1] using i, DFrame.refl _ _⟩
  | cons v sB ih =>
    intro h A B sA fuel t i hA hf
    cases B with
    | nil => have := i.length_ids; simp at this; omega
    | cons q B =>
      cases fuel with
      | zero => simp at hf
      | succ n =>
        obtain ⟨hne, b, ld⟩ := i.node hA hhd
        obtain ⟨h1, e1, i1, f1, _⟩ := i.setVal hA (cb t v).2.1
        obtain ⟨_, b1, ld1⟩ := i1.node hA hhd
        rcases Bool.eq_false_or_eq_true (cb t v).2.2 with hc | hc
        · obtain ⟨h2, e2, i2, f2⟩ := ih (h := h1) (A := A ++ [q]) (B := B) (sA := sA ++ [(cb t v).2.1]) (fuel := n) (t := (cb t v).1)
            (by simpa using i1) (by simp [hA]) (by simp at hf; omega)
          refine ⟨h2, ?_, by simpa [updateWhile1, hc] using i2, f1.trans f2 (fun x hx => .inl (by simpa using hx))⟩
          simp [-List.head?_append, DL.forEachMutableIfLoop, updateWhile1, GoM.bind_def, hhd, hne, ld, e1, ld1, e2, hc]
        · refine ⟨h1, ?_, by simpa [updateWhile1, hc] using i1, f1⟩
          simp [-List.head?_append, DL.forEachMutableIfLoop, updateWhile1, GoM.bind_def, hhd, hne, ld, e1, hc]

theorem DInv.updateLoop {l : DL} {hd : Nat} (hhd : l.head = some hd) (f : T → T) (sB : List T) :
    ∀ {h : List (DNode T)} {A B : List Nat} {sA : List T} {fuel : Nat}, DInv h l (A ++ B) (sA ++ sB) → A.length = sA.length →
    B.length < fuel → ∃ h', DIter.update f fuel { node := (B ++ [hd]).head? } ⟨h, l⟩ = .ok () ⟨h', l⟩ ∧
      DInv h' l (A ++ B) (sA ++ sB.map f) ∧ DFrame h h' (foot l (A ++ B)) := by
  induction sB with
  | nil =>
    intro h A B sA fuel i hA hf
    have hB : B = [] := by have := i.length_ids; simp at this; exact List.length_eq_zero_iff.1 (by omega)
    subst hB
    cases fuel with
    | zero => simp at hf
    | succ n => exact ⟨h, by simp [DIter.update, DIter.isNotEnd, GoM.bind_def, hhd], by simpa using i, DFrame.refl _ _⟩
  | cons v sB ih =>
    intro h A B sA fuel i hA hf
    cases B with
    | nil => have := i.length_ids; simp at this; omega
    | cons q B =>
      cases fuel with
      | zero => simp at hf
      | succ n =>
        obtain ⟨hne, b, ld⟩ := i.node hA hhd
        obtain ⟨h1, e1, i1, f1, _⟩ := i.setVal hA (f v)
        obtain ⟨_, b1, ld1⟩ := i1.node hA hhd
        obtain ⟨h2, e2, i2, f2⟩ := ih (h := h1) (A := A ++ [q]) (B := B) (sA := sA ++ [f v]) (fuel := n)
          (by simpa using i1) (by simp [hA]) (by simp at hf; omega)
        refine ⟨h2, ?_, by simpa using i2, f1.trans f2 (fun x hx => .inl (by simpa using hx))⟩
        simp [-List.head?_append, DIter.update, DIter.isNotEnd, DIter.value, DIter.moveToNext, GoM.bind_def, hhd, hne, ld, e1, ld1, e2]

/-! ## Whole calls -/

/-- A non-empty list: the load of the head that every ForEach starts with. -/
theorem DInv.enter {h : List (DNode T)} {l : DL} {ids : List Nat} {s : List T} (i : DInv h l ids s) (hs : s ≠ []) :
    ∃ hd, l.head = some hd ∧ s.isEmpty = false ∧ ∃ b w, DS.load (some hd) ⟨h, l⟩ = .ok ⟨b, (ids ++ [hd]).head?, w⟩ ⟨h, l⟩ := by
  obtain ⟨hd, hhd, _⟩ := i.head_of_ne hs
  have L := i.lk hd hhd
  have hn : nx h hd = some (ids ++ [hd]).head? := by
    cases hx : ids ++ [hd] with
    | nil => simp at hx
    | cons f r => rw [List.cons_append, hx] at L; exact L.1.1
  obtain ⟨_, pvhd, _⟩ := view_of_lt (i.bound hd (by simp [foot, hhd]))
  obtain ⟨w, _, ld⟩ := DS.load_view (l := l) hn pvhd
  exact ⟨hd, hhd, by cases s <;> simp_all, _, w, ld⟩

theorem DInv.forEach {h : List (DNode T)} {l : DL} {ids : List Nat} {s : List T} (i : DInv h l ids s) (cb : σ → T → σ) (t : σ) :
    DL.forEach cb t ⟨h, l⟩ = .ok (s.foldl cb t) ⟨h, l⟩ := by
  have he := i.isEmpty
  by_cases hs : s = []
  · subst hs; simp [DL.forEach, GoM.bind_def, he]
  · obtain ⟨hd, hhd, hne, b, w, ld⟩ := i.enter hs
    rw [hne] at he
    have := DInv.forEachLoop hhd cb s (A := []) (B := ids) (sA := []) (fuel := h.length + 1) (t := t) (by simpa using i) rfl
      (by have := i.fuel; omega)
    simp [-List.head?_append, DL.forEach, GoM.bind_def, he, hhd, ld, this]

theorem DInv.forEachIf {h : List (DNode T)} {l : DL} {ids : List Nat} {s : List T} (i : DInv h l ids s) (cb : σ → T → σ × Bool) (t : σ) :
    DL.forEachIf cb t ⟨h, l⟩ = .ok (visitWhile1 cb t s) ⟨h, l⟩ := by
  have he := i.isEmpty
  by_cases hs : s = []
  · subst hs; simp [DL.forEachIf, GoM.bind_def, he, visitWhile1]
  · obtain ⟨hd, hhd, hne, b, w, ld⟩ := i.enter hs
    rw [hne] at he
    have := DInv.forEachIfLoop hhd cb s (A := []) (B := ids) (sA := []) (fuel := h.length + 1) (t := t) (by simpa using i) rfl
      (by have := i.fuel; omega)
    simp [-List.head?_append, DL.forEachIf, GoM.bind_def, he, hhd, ld, this]

theorem DInv.forEachMutable {h : List (DNode T)} {l : DL} {ids : List Nat} {s : List T} (i : DInv h l ids s) (cb : σ → T → σ × T) (t : σ) :
    ∃ h', DL.forEachMutable cb t ⟨h, l⟩ = .ok (updateAll1 cb t s).1 ⟨h', l⟩ ∧ DInv h' l ids (updateAll1 cb t s).2 ∧ DFrame h h' (foot l ids) := by
  have he := i.isEmpty
  by_cases hs : s = []
  · subst hs; exact ⟨h, by simp [DL.forEachMutable, GoM.bind_def, he, updateAll1], i, DFrame.refl _ _⟩
  · obtain ⟨hd, hhd, hne, b, w, ld⟩ := i.enter hs
    rw [hne] at he
    obtain ⟨h', e, i', f'⟩ := DInv.forEachMutableLoop hhd cb s (A := []) (B := ids) (sA := []) (fuel := h.length + 1) (t := t)
      (by simpa using i) rfl (by have := i.fuel; omega)
    exact ⟨h', by simp [-List.head?_append, DL.forEachMutable, GoM.bind_def, he, hhd, ld, e], by simpa using i', by simpa using f'⟩

theorem DInv.forEachMutableIf {h : List (DNode T)} {l : DL} {ids : List Nat} {s : List T} (i : DInv h l ids s) (cb : σ → T → σ × T × Bool)
    (t : σ) : ∃ h', DL.forEachMutableIf cb t ⟨h, l⟩ = .ok (updateWhile1 cb t s).1 ⟨h', l⟩ ∧ DInv h' l ids (updateWhile1 cb t s).2 ∧
      DFrame h h' (foot l ids) := by
  have he := i.isEmpty
  by_cases hs : s = []
  · subst hs; exact ⟨h, by simp [DL.forEachMutableIf, GoM.bind_def, he, updateWhile1], i, DFrame.refl _ _⟩
  · obtain ⟨hd, hhd, hne, b, w, ld⟩ := i.enter hs
    rw [hne] at he
    obtain ⟨h', e, i', f'⟩ := DInv.forEachMutableIfLoop hhd cb s (A := []) (B := ids) (sA := []) (fuel := h.length + 1) (t := t)
      (by simpa using i) rfl (by have := i.fuel; omega)
    exact ⟨h', by simp [-List.head?_append, DL.forEachMutableIf, GoM.bind_def, he, hhd, ld, e], by simpa using i', by simpa using f'⟩

theorem DInv.iterUpdate {h : List (DNode T)} {l : DL} {ids : List Nat} {s : List T} (i : DInv h l ids s) (f : T → T) :
    ∃ h', (do let it ← DL.iterate; it.update f (h.length + 1) : GoM (DS T) Unit) ⟨h, l⟩ = .ok () ⟨h', l⟩ ∧ DInv h' l ids (s.map f) ∧
      DFrame h h' (foot l ids) := by
  rcases i.iterate with ⟨hd, hhd, e⟩ | ⟨hhd, rfl, e⟩
  · obtain ⟨h', e', i', f'⟩ := DInv.updateLoop hhd f s (A := []) (B := ids) (sA := []) (fuel := h.length + 1) (by simpa using i) rfl
      (by have := i.fuel; omega)
    exact ⟨h', by rw [GoM.bind_def, e]; exact e', by simpa using i', by simpa using f'⟩
  · refine ⟨h, ?_, i, DFrame.refl _ _⟩
    rw [GoM.bind_def, e]
    simp [DIter.update, DIter.isNotEnd, GoM.bind_def, hhd]

/-- Replacing the contents of one variable in place keeps the world in order. -/
theorem WInv.inPlace {w : DWorld T} {s : Nat → List T} {ids : Nat → List Nat} (hw : WInv w s ids) (i : Nat) {h' : List (DNode T)} {s' : List T}
    (hi : DInv h' (w.vars i) (ids i) s') (hf : DFrame w.heap h' (foot (w.vars i) (ids i))) :
    WInv { heap := h', vars := w.vars } (fun j => if j = i then s' else s j) ids := by
  refine ⟨fun j => ?_, hw.disj⟩
  by_cases hj : j = i
  · subst hj; simpa using hi
  · simp only [hj, if_false]
    exact (hw.inv j).frame hf (fun q hq hc => hw.disj j i hj q hq hc)

end Stl4go
