import Verif.Proofs.HeapMemApi
import Verif.Proofs.PriorityQueue
/-! # Repeated pops, queues on memory -/
namespace Stl4go
variable {T τ : Type} {less : LessM T τ} {l : T → T → Bool}

/-! ## Repeated pops -/

theorem IsHeap.head_min (hw : StrictWeak l) {h : List T} (H : IsHeap l h) (hn : 0 < h.length) : ∀ y ∈ h, l y h[0] = false := by
  intro y hy
  obtain ⟨k, hk, rfl⟩ := List.getElem_of_mem hy
  exact H.root_le hw k hk

theorem Sl.read_write_prefix (m : Mem T) (a : Sl) (ys : List T) (h : ys.length ≤ a.len) :
    a.read (m.write a.off ys) = ys ++ (a.read m).drop ys.length := by
  apply List.ext_getElem (by simp; omega)
  intro i h1 h2
  rw [Sl.read_getElem]
  by_cases hi : i < ys.length
  · rw [Mem.write_in _ _ _ i hi, List.getElem_append_left hi]
  · rw [Mem.write_out _ _ _ _ (by omega), List.getElem_append_right (by omega), List.getElem_drop, Sl.read_getElem]
    congr 1; omega

theorem Sl.read_take (m : Mem T) (a : Sl) (n : Nat) (h : n ≤ a.len) : Sl.read m { a with len := n } = (a.read m).take n := by
  have := Sl.read_sub m a 0 n a.cap (by omega)
  simpa using this

theorem OnlyIn.trans {m m' m'' : Mem T} {a : Sl} (h1 : OnlyIn m m' a) (h2 : OnlyIn m' m'' a) : OnlyIn m m'' a :=
  ⟨h2.1.trans h1.1, fun k hk => (h2.2 k hk).trans (h1.2 k hk)⟩

theorem popTimes_sorts (ha : Answers less l) (hw : StrictWeak l) (a : Sl) (hc : a.len ≤ a.cap) (n : Nat) :
    ∀ (m : Mem T) (t : τ) (hs tail : List T), hs.length = n → a.read m = hs ++ tail → IsHeap l hs →
      (∀ y ∈ hs, ∀ z ∈ tail, l y z = false) → tail.Pairwise (fun x y => l x y = false) →
      ∃ xs m' t', popTimes less n ⟨m, t, { a with len := n }⟩ = .ok xs ⟨m', t', { a with len := 0 }⟩ ∧ a.read m' = xs.reverse ++ tail ∧
        (xs.reverse ++ tail).Pairwise (fun x y => l x y = false) ∧ xs.Perm hs ∧ OnlyIn m m' a := by
  induction n with
  | zero =>
    intro m t hs tail hn hr H hd hp
    cases List.eq_nil_of_length_eq_zero hn
    exact ⟨[], m, t, rfl, hr, hp, .refl _, rfl, fun _ _ => rfl⟩
  | succ n ih =>
    intro m t hs tail hn hr H hd hp
    have hlen : n + 1 ≤ a.len := by have := congrArg List.length hr; simp at this; omega
    obtain ⟨h', e1, e2, e3⟩ := popHeapFunc_spec hw hs (by omega) H
    have hread : Sl.read m { a with len := n + 1 } = hs := by
      rw [Sl.read_take m a _ hlen, hr, ← hn, List.take_left]
    have hl' : h'.length = n := by have := e2.length_eq; simp at this; omega
    obtain ⟨_, t1, e4⟩ := popHeapFuncM_refines ha (⟨m, t, { a with len := n + 1 }⟩ : HS T τ) (by simp only; omega) (by rw [hread]; exact e1)
    simp only [hl'] at e4
    have hmem : ∀ y ∈ h', y ∈ hs := fun y hy => e2.subset (List.mem_cons_of_mem _ hy)
    have hmin := H.head_min hw (by omega)
    have h0 : hs[0]'(by omega) ∈ hs := List.getElem_mem _
    have hr' : a.read (m.write a.off (h' ++ [hs[0]'(by omega)])) = h' ++ (hs[0]'(by omega) :: tail) := by
      rw [Sl.read_write_prefix _ _ _ (by simp; omega), hr]
      have : (h' ++ [hs[0]'(by omega)]).length = hs.length := by simp; omega
      rw [this, List.drop_left, List.append_assoc]
      rfl
    obtain ⟨xs, m', t', g1, g2, g3, g4, g5⟩ := ih (m.write a.off (h' ++ [hs[0]'(by omega)])) t1 h' (hs[0]'(by omega) :: tail) hl' hr' e3
      (by
        intro y hy z hz
        rcases List.mem_cons.1 hz with rfl | hz
        · exact hmin y (hmem y hy)
        · exact hd y (hmem y hy) z hz)
      (List.pairwise_cons.2 ⟨fun z hz => hd _ h0 z hz, hp⟩)
    refine ⟨hs[0]'(by omega) :: xs, m', t', ?_, by rw [g2]; simp, by simpa using g3, (g4.cons _).trans e2, ?_⟩
    · simp only [popTimes, GoM.bind_def, e4, g1]
      rfl
    · exact OnlyIn.trans (m' := m.write a.off (h' ++ [hs[0]'(by omega)])) ⟨rfl, fun k hk => Mem.write_out _ _ _ _ (by simp; omega)⟩ g5

/-! ## Steps of a queue -/

variable {P : T → Prop}

theorem KStep.trans {m m' m'' : Mem T} {v v' v'' : Sl} {s' s'' : List T} (a : KStep P m v m' v' s') (b : KStep P m' v' m'' v'' s'') :
    KStep P m v m'' v'' s'' where
  wf := b.wf
  read := b.read
  top := Nat.le_trans a.top b.top
  place := by
    have h1 := a.place
    have h2 := b.place
    have h3 := a.top
    omega
  frame k hk ho := by
    have h1 := a.place
    have h3 := a.top
    rw [b.frame k (by omega) (by omega), a.frame k hk ho]
  vals hp := b.vals (a.vals hp)

/-- The elements of a slice change places. -/
theorem KStep.rearrange {m : Mem T} {h : Sl} (hw : h.WF m) {ys : List T} (hp : ys.Perm (h.read m)) :
    KStep P m h (m.write h.off ys) h ys := by
  have hl : ys.length = h.len := by simpa using hp.length_eq
  have h1 := hw.1
  refine ⟨hw.write _ _, Sl.read_write_self _ _ _ hl, Nat.le_refl _, .inl ⟨rfl, rfl⟩, fun k _ ho => Mem.write_out _ _ _ _ (by omega), ?_⟩
  intro hpr k hk
  unfold Sl.Has at hk hpr
  by_cases hin : k < h.off + h.len
  · obtain ⟨i, rfl⟩ : ∃ i, k = h.off + i := ⟨k - h.off, by omega⟩
    rw [Mem.write_in _ _ _ i (by omega)]
    have hm : ys[i]'(by omega) ∈ h.read m := hp.subset (List.getElem_mem _)
    simp only [Sl.read, List.mem_map, List.mem_range] at hm
    obtain ⟨j, hj, e⟩ := hm
    rw [← e]
    exact hpr _ (by omega)
  · rw [Mem.write_out _ _ _ _ (by omega)]
    exact hpr k hk

section
variable [GoZero T]

theorem Sl.append_kstep (grow : Nat → Nat → Nat) (x : T) (hx : P x) (h0 : P GoZero.zero) {m m' : Mem T} {v v' : Sl} (h : v.WF m)
    (e : v.append grow [x] m = .ok v' m') : KStep P m v m' v' (v.read m ++ [x]) := by
  obtain ⟨m1, v1, e1, st⟩ := Stk.push_step grow x hx h0 h
  simp only [Stk.push, GoM.bind_def, VS.recv_apply, VS.on_ok e] at e1
  cases e1
  exact st

/-- The queue uses the order `l`. -/
def PQImplM.Is (impl : PQImplM T τ) (l : T → T → Bool) : Prop :=
  match impl with
  | .ordered ord => l = ord.lt
  | .func less => Answers less l
  | .nil => False

omit [GoZero T] in
theorem PQM.pop_is {impl : PQImplM T τ} (hi : impl.Is l) : ∃ less : LessM T τ, Answers less l ∧ PQM.pop impl = popHeapFuncM less := by
  cases impl with
  | ordered ord =>
    have e : l = ord.lt := hi
    subst e
    exact ⟨pureLess ord.lt, answers_pure _, popMinHeapM_eq⟩
  | func less => exact ⟨less, hi, rfl⟩
  | nil => exact hi.elim

theorem PQM.push_is (grow : Nat → Nat → Nat) (v : T) {impl : PQImplM T τ} (hi : impl.Is l) :
    ∃ less : LessM T τ, Answers less l ∧ PQM.push grow impl v = pushHeapFuncM grow v less := by
  cases impl with
  | ordered ord =>
    have e : l = ord.lt := hi
    subst e
    exact ⟨pureLess ord.lt, answers_pure _, pushMinHeapM_eq grow v⟩
  | func less => exact ⟨less, hi, rfl⟩
  | nil => exact hi.elim

omit [GoZero T] in
theorem HS.observe_ok {α : Type} {f : α → PQObs T} {x : GoM (HS T τ) α} {s s' : HS T τ} {a : α} (h : x s = .ok a s') :
    HS.observe f x s = (f a, s') := by simp only [HS.observe, h]

omit [GoZero T] in
theorem HS.observe_panic {α : Type} {f : α → PQObs T} {x : GoM (HS T τ) α} {s s' : HS T τ} (h : x s = .panic s') :
    HS.observe f x s = (.panicked, s') := by simp only [HS.observe, h]

/-- One operation on a queue. -/
theorem PQM.exec_step (grow : Nat → Nat → Nat) {impl : PQImplM T τ} (hi : impl.Is l) (hw : StrictWeak l) (op : PQOp T)
    (h0 : P GoZero.zero) (hx : ∀ x, op = .push x → P x) {m : Mem T} {v : Sl} (t : τ) (hwf : v.WF m) (H : IsHeap l (v.read m)) :
    ∃ ob m' v' t' s', PQM.exec grow impl ⟨m, t, v⟩ op = (ob, ⟨m', t', v'⟩) ∧ KStep P m v m' v' s' ∧ PQStep l (v.read m) op ob s' ∧ IsHeap l s' := by
  have hlen : (v.read m).length = v.len := by simp
  have same : KStep P m v m v (v.read m) := KStep.refl hwf
  cases op with
  | push x =>
    obtain ⟨less, ha, e⟩ := PQM.push_is grow x hi
    obtain ⟨h', e1, e2, e3⟩ := pushHeapFunc_spec hw (v.read m) x H
    obtain ⟨v', m', t', e4, e5, e6⟩ := pushHeapFuncM_refines ha grow x (⟨m, t, v⟩ : HS T τ) hwf e1
    have st := Sl.append_kstep grow x (hx x rfl) h0 hwf e4
    have hp : h'.Perm (v'.read m') := by
      rw [st.read]
      exact e2.trans (List.perm_append_comm (l₁ := [x]))
    exact ⟨.unit, _, v', t', h', HS.observe_ok (by rw [e]; exact e6), st.trans (KStep.rearrange st.wf hp), .push _ _ _ e2, e3⟩
  | pop =>
    obtain ⟨less, ha, e⟩ := PQM.pop_is hi
    by_cases hv : v.len = 0
    · have hnil : v.read m = [] := List.eq_nil_of_length_eq_zero (by omega)
      refine ⟨.panicked, m, v, t, v.read m, HS.observe_panic (by rw [e]; exact popHeapFuncM_empty m t v hv), same, ?_, H⟩
      rw [hnil]; exact .popEmpty
    · obtain ⟨h', e1, e2, e3⟩ := popHeapFunc_spec hw (v.read m) (by omega) H
      obtain ⟨e7, t', e4⟩ := popHeapFuncM_refines ha (⟨m, t, v⟩ : HS T τ) hwf.1 e1
      simp only at e7 e4
      have hp : (h' ++ [(v.read m)[0]'(by omega)]).Perm (v.read m) := (List.perm_append_comm (l₂ := [(v.read m)[0]'(by omega)])).trans e2
      have s1 : KStep P m v (m.write v.off (h' ++ [(v.read m)[0]'(by omega)])) v _ := KStep.rearrange hwf hp
      have s2 := KStep.cut (P := P) s1.wf h'.length (by omega)
      rw [s1.read, List.take_left] at s2
      have hmin := H.head_min hw (by omega)
      exact ⟨.val _, _, _, t', h', HS.observe_ok (by rw [e]; exact e4), s1.trans s2, .pop _ _ _ e2.symm hmin, e3⟩
  | top =>
    by_cases hv : v.len = 0
    · have hnil : v.read m = [] := List.eq_nil_of_length_eq_zero (by omega)
      have eg : v.get 0 m = .panic m := Sl.get_panic _ _ _ (by omega)
      refine ⟨.panicked, m, v, t, v.read m, HS.observe_panic (by simp only [PQM.top, GoM.bind_def, HS.recv, HS.on, eg]), same, ?_, H⟩
      rw [hnil]; exact .topEmpty
    · have hmin := H.head_min hw (by omega)
      have eg : v.get 0 m = .ok ((v.read m)[0]'(by omega)) m := by
        have := Sl.get_ok v m 0 (by omega)
        simpa using this
      exact ⟨.val ((v.read m)[0]'(by omega)), m, v, t, v.read m, HS.observe_ok (by simp only [PQM.top, GoM.bind_def, HS.recv, HS.on, eg]), same,
        .top _ _ (List.getElem_mem _) hmin, H⟩
  | clear =>
    have e := Sl.slice_zero v m 0 (Nat.zero_le _)
    simp only [Int.natCast_zero] at e
    have := KStep.cut (P := P) hwf 0 (Nat.zero_le _)
    exact ⟨.unit, m, { v with len := 0 }, t, [],
      HS.observe_ok (f := fun _ => .unit) (x := PQM.clear) (a := ()) (s := ⟨m, t, v⟩)
        (by simp only [PQM.clear, GoM.bind_def, HS.recv, HS.on, e, HS.assign]), by simpa using this, .clear _, by intro i hi; simp at hi⟩
  | len =>
    refine ⟨.num v.len, m, v, t, v.read m, HS.observe_ok rfl, same, ?_, H⟩
    have := PQStep.len (less := l) (v.read m)
    rwa [hlen] at this
  | isEmpty =>
    refine ⟨.flag (v.len == 0), m, v, t, v.read m, HS.observe_ok rfl, same, ?_, H⟩
    have := PQStep.isEmpty (less := l) (v.read m)
    have e : decide (v.read m = []) = (v.len == 0) := by
      rw [Bool.eq_iff_iff]
      simp [← List.length_eq_zero_iff]
    rwa [e] at this

/-- A history on one queue. -/
theorem PQM.execAll_step (grow : Nat → Nat → Nat) {impl : PQImplM T τ} (hi : impl.Is l) (hw : StrictWeak l) (ops : List (PQOp T))
    (h0 : P GoZero.zero) : ∀ {m : Mem T} {v : Sl} (t : τ), (∀ x, .push x ∈ ops → P x) → v.WF m → IsHeap l (v.read m) →
    ∃ obs m' v' t' s', PQM.execAll grow impl ⟨m, t, v⟩ ops = (obs, ⟨m', t', v'⟩) ∧ KStep P m v m' v' s' ∧ PQRun l (v.read m) ops obs s' ∧ IsHeap l s' := by
  induction ops with
  | nil => intro m v t _ hwf H; exact ⟨[], m, v, t, v.read m, rfl, KStep.refl hwf, .nil _, H⟩
  | cons op ops ih =>
    intro m v t hx hwf H
    obtain ⟨ob, m1, v1, t1, s1, e1, k1, p1, H1⟩ := PQM.exec_step (P := P) grow hi hw op h0 (fun x e => hx x (by simp [e])) t hwf H
    obtain ⟨obs, m2, v2, t2, s2, e2, k2, p2, H2⟩ := ih t1 (fun x e => hx x (by simp [e])) k1.wf (by rw [k1.read]; exact H1)
    rw [k1.read] at p2
    exact ⟨ob :: obs, m2, v2, t2, s2, by simp only [PQM.execAll, e1, e2], k1.trans k2, .cons _ _ _ _ _ _ _ p1 p2, H2⟩

end
end Stl4go
