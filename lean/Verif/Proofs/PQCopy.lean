import Verif.Spec.PQCopy
import Verif.Proofs.PQSlots
/-! # Copies of priority queues: simulation -/
namespace Stl4go
variable {T : Type}

theorem IsHeap.minFirst {l : T → T → Bool} (hw : StrictWeak l) {q : List T} (H : IsHeap l q) : MinFirst l q := by
  intro r hr y hy
  cases q with
  | nil => cases hr
  | cons a q =>
    cases hr
    exact H.head_min hw (by simp) y hy

/-- The first slot of an array that is not empty. -/
theorem Sl.first_slot (m : Mem T) (v : Sl) (hc : v.len ≤ v.cap) (h0 : 0 < v.cap) : (v.read m ++ v.unused m).head? = some (m.cell v.off) := by
  by_cases hl : v.len = 0
  · have h1 : v.read m = [] := List.eq_nil_of_length_eq_zero (by simpa using hl)
    have h2 : 0 < (v.unused m).length := by rw [Sl.unused_length]; omega
    rw [h1, List.nil_append, List.head?_eq_getElem?, List.getElem?_eq_getElem h2, Sl.unused_getElem]
    simp [hl]
  · have h2 : 0 < (v.read m).length := by simp; omega
    rw [List.head?_append, List.head?_eq_getElem?, List.getElem?_eq_getElem h2, Sl.read_getElem]
    simp

variable [GoZero T] {l : T → T → Bool}

/-- Where the elements are after an operation: `Push` without unused slots moves to a new array and leaves the old one as it was, otherwise they
stay in their array. -/
theorem PQM.exec_place (grow : Nat → Nat → Nat) {impl : PQImplM T Unit} (hi : impl.Is l) (hw : StrictWeak l) (o : PQOp T) {m : Mem T} {v : Sl}
    (hwf : v.WF m) (H : IsHeap l (v.read m)) :
    (∃ x, o = .push x ∧ v.unused m = [] ∧ m.top ≤ (PQM.exec grow impl ⟨m, (), v⟩ o).2.heap.off ∧ 0 < (PQM.exec grow impl ⟨m, (), v⟩ o).2.heap.cap ∧
      ∀ k, k < m.top → (PQM.exec grow impl ⟨m, (), v⟩ o).2.mem.cell k = m.cell k) ∨
    ((∀ x, o = .push x → v.unused m ≠ []) ∧ (PQM.exec grow impl ⟨m, (), v⟩ o).2.heap.off = v.off ∧ (PQM.exec grow impl ⟨m, (), v⟩ o).2.heap.cap = v.cap) := by
  have hc := hwf.1
  cases o with
  | push x =>
    obtain ⟨less, ha, e⟩ := PQM.push_is grow x hi
    obtain ⟨h', e1, e2, e3⟩ := pushHeapFunc_spec hw (v.read m) x H
    obtain ⟨v', m', t', e4, e5, e6⟩ := pushHeapFuncM_refines ha grow x (⟨m, (), v⟩ : HS T Unit) hwf e1
    have hp := pushHeapFuncM_any grow x less (⟨m, (), v⟩ : HS T Unit) hwf
    rw [e6] at hp
    have hp : Pushed m v x (m'.write v'.off h') v' := hp
    have e7 : PQM.exec grow impl ⟨m, (), v⟩ (.push x) = (.unit, ⟨m'.write v'.off h', t', v'⟩) := HS.observe_ok (by rw [e]; exact e6)
    rw [e7]
    by_cases hf : v.len = v.cap
    · left
      have hl := hp.read.length_eq
      simp only [Sl.read_length, List.length_cons] at hl
      have hl2 := hp.wf.1
      exact ⟨x, rfl, Sl.unused_full m v (by omega), (hp.full hf).1, by simp only; omega, (hp.full hf).2⟩
    · right
      obtain ⟨h1, _⟩ := hp.room (by omega)
      refine ⟨fun y _ hu => ?_, by simp only; rw [h1], by simp only; rw [h1]⟩
      have := Sl.unused_length m v
      rw [hu] at this
      simp at this
      omega
  | pop =>
    right
    refine ⟨fun x hx => (nomatch hx), ?_⟩
    obtain ⟨less, ha, e⟩ := PQM.pop_is hi
    by_cases hv : v.len = 0
    · have e7 : PQM.exec grow impl ⟨m, (), v⟩ .pop = (.panicked, ⟨m, (), v⟩) :=
        HS.observe_panic (by rw [e]; exact popHeapFuncM_empty m () v hv)
      rw [e7]; exact ⟨rfl, rfl⟩
    · obtain ⟨h', e1, e2, e3⟩ := popHeapFunc_spec hw (v.read m) (by simp; omega) H
      obtain ⟨e7, t', e4⟩ := popHeapFuncM_refines ha (⟨m, (), v⟩ : HS T Unit) hwf.1 e1
      simp only at e7 e4
      have e8 : PQM.exec grow impl ⟨m, (), v⟩ .pop = (.val _, ⟨m.write v.off (h' ++ [(v.read m)[0]'(by simp; omega)]), t', { v with len := h'.length }⟩) :=
        HS.observe_ok (by rw [e]; exact e4)
      rw [e8]; exact ⟨rfl, rfl⟩
  | top =>
    right
    refine ⟨fun x hx => (nomatch hx), ?_⟩
    have e : ∀ s', (PQM.top (⟨m, (), v⟩ : HS T Unit) = .panic s' ∨ ∃ r, PQM.top (⟨m, (), v⟩ : HS T Unit) = .ok r s') → s'.heap = v →
        (PQM.exec grow impl ⟨m, (), v⟩ .top).2.heap = v := by
      intro s' h hv
      rcases h with h | ⟨r, h⟩
      · have : PQM.exec grow impl ⟨m, (), v⟩ .top = _ := HS.observe_panic h
        rw [this]; exact hv
      · have : PQM.exec grow impl ⟨m, (), v⟩ .top = _ := HS.observe_ok h
        rw [this]; exact hv
    have key : (PQM.exec grow impl ⟨m, (), v⟩ .top).2.heap = v := by
      by_cases hv : v.len = 0
      · have eg : v.get 0 m = .panic m := Sl.get_panic _ _ _ (by omega)
        exact e ⟨m, (), v⟩ (.inl (by simp only [PQM.top, GoM.bind_def, HS.recv, HS.on, eg])) rfl
      · have eg : v.get 0 m = .ok ((v.read m)[0]'(by simp; omega)) m := by
          have := Sl.get_ok v m 0 (by omega)
          simpa using this
        exact e ⟨m, (), v⟩ (.inr ⟨(v.read m)[0]'(by simp; omega), by simp only [PQM.top, GoM.bind_def, HS.recv, HS.on, eg]⟩) rfl
    rw [key]; exact ⟨rfl, rfl⟩
  | clear =>
    right
    refine ⟨fun x hx => (nomatch hx), ?_⟩
    have e := Sl.slice_zero v m 0 (Nat.zero_le _)
    simp only [Int.natCast_zero] at e
    have e2 : PQM.exec grow impl ⟨m, (), v⟩ .clear = (.unit, ⟨m, (), { v with len := 0 }⟩) :=
      HS.observe_ok (f := fun _ => .unit) (x := PQM.clear) (a := ()) (s := ⟨m, (), v⟩)
        (by simp only [PQM.clear, GoM.bind_def, HS.recv, HS.on, e, HS.assign])
    rw [e2]; exact ⟨rfl, rfl⟩
  | len => exact .inr ⟨fun x hx => (nomatch hx), rfl, rfl⟩
  | isEmpty => exact .inr ⟨fun x hx => (nomatch hx), rfl, rfl⟩

/-- A copy of queue `k`, made with its array number `a`, and cut to length `n`. -/
structure PQCopyOk (w : PQCWorld T) (s : PQCSpec T) (x k a n : Nat) : Prop where
  lt : x < w.next
  home : (w.obj x).home = k
  len : (w.obj x).heap.len = n
  cap : (w.obj x).heap.len ≤ (w.obj x).heap.cap
  of : ∃ l q e past, s.view k = .queue l q e past ∧ (w.obj x).impl = (w.obj k).impl ∧ a ≤ past.length ∧
    (0 < n → a = past.length → (w.obj x).heap.off = (w.obj k).heap.off ∧ 0 < (w.obj k).heap.cap) ∧
    (0 < n → a < past.length → past[a]? = some (some (w.mem.cell (w.obj x).heap.off)) ∧ (w.obj x).heap.off < w.mem.top ∧
      ∀ y l q e past, s.view y = .queue l q e past → ¬ (w.obj y).heap.Has (w.obj x).heap.off)

/-- A queue. -/
structure PQQueueOk (w : PQCWorld T) (x : Nat) (l : T → T → Bool) (q e : List T) : Prop where
  lt : x < w.next
  home : (w.obj x).home = x
  is : (w.obj x).impl.Is l
  weak : StrictWeak l
  heap : IsHeap l q
  wf : (w.obj x).heap.WF w.mem
  read : (w.obj x).heap.read w.mem = q
  unused : (w.obj x).heap.unused w.mem = e

/-- The world is as the specification says. -/
structure PQCInv (w : PQCWorld T) (s : PQCSpec T) : Prop where
  next : w.next = s.next
  var : w.var = s.var
  bound : ∀ i x, s.var i = some x → s.view x ≠ .absent
  absent : ∀ x, w.next ≤ x → s.view x = .absent
  queue : ∀ x l q e past, s.view x = .queue l q e past → PQQueueOk w x l q e
  copy : ∀ x k a n, s.view x = .copy k a n → PQCopyOk w s x k a n
  disj : ∀ x y l q e past l' q' e' past', s.view x = .queue l q e past → s.view y = .queue l' q' e' past' → x ≠ y →
    ∀ k, (w.obj x).heap.Has k → ¬ (w.obj y).heap.Has k

omit [GoZero T] in
theorem PQCInv.init (m : Mem T) : PQCInv (PQCWorld.init m) PQCSpec.init where
  next := rfl
  var := rfl
  bound _ _ h := nomatch h
  absent _ _ := rfl
  queue _ _ _ _ _ h := nomatch h
  copy _ _ _ _ h := nomatch h
  disj _ _ _ _ _ _ _ _ _ _ h := nomatch h

variable [GoOrd T] [LawfulGoOrd T]

/-- A method of a queue. -/
theorem PQCInv.onQueue (grow : Nat → Nat → Nat) {w : PQCWorld T} {s : PQCSpec T} (h : PQCInv w s) {x : Nat} {q e : List T} {past : List (Option T)}
    (hx : s.view x = .queue l q e past) (o : PQOp T) :
    ∃ ob r q', PQM.exec grow (w.obj x).impl { mem := w.mem, st := (), heap := (w.obj x).heap } o = (ob, r) ∧ PQStep l q o ob q' ∧ MinFirst l q' ∧
      PQCInv { w with mem := r.mem, obj := fun y => if y = x then { w.obj y with heap := r.heap } else w.obj y }
        (s.set x (.queue l q' ((PQWOp.op o).leaves grow (.made l q) e ob) (o.pastAfter q e past))) := by
  have hq := h.queue x l q e past hx
  have hr := hq.read
  have H : IsHeap l ((w.obj x).heap.read w.mem) := by rw [hr]; exact hq.heap
  obtain ⟨ob, m', v', t', q', e1, st, hs, H'⟩ := PQM.exec_step (P := fun _ => True) grow hq.is hq.weak o trivial (fun _ _ => trivial) () hq.wf H
  have hu := PQWOp.exec_unused grow (.op o) (fun less e => nomatch e) (q := .made l q) hq.wf ⟨hq.is, hq.weak, hq.heap⟩ hr
  have hpl := PQM.exec_place grow hq.is hq.weak o hq.wf H
  rw [hr] at hs
  have e2 : PQWOp.exec grow (w.obj x).impl ⟨w.mem, (), (w.obj x).heap⟩ (.op o) = (ob, ⟨m', t', v'⟩) := e1
  rw [e2] at hu
  rw [e1] at hpl
  simp only [hq.unused] at hu hpl
  refine ⟨ob, _, q', e1, hs, H'.minFirst hq.weak, ?_⟩
  have hview : ∀ y, y ≠ x → (s.set x (.queue l q' ((PQWOp.op o).leaves grow (.made l q) e ob) (o.pastAfter q e past))).view y = s.view y := by
    intro y hy; simp [PQCSpec.set, hy]
  have hviewx : (s.set x (.queue l q' ((PQWOp.op o).leaves grow (.made l q) e ob) (o.pastAfter q e past))).view x
      = .queue l q' ((PQWOp.op o).leaves grow (.made l q) e ob) (o.pastAfter q e past) := by simp [PQCSpec.set]
  have has : ∀ k, v'.Has k → (w.obj x).heap.Has k ∨ w.mem.top ≤ k := by
    intro k hk
    have hp := st.place
    unfold Sl.Has at hk ⊢
    omega
  have out : ∀ k, k < w.mem.top → ¬ (w.obj x).heap.Has k → m'.cell k = w.mem.cell k := by
    intro k hk hn
    exact st.frame k hk (by unfold Sl.Has at hn; omega)
  have mine : ∀ y l1 q1 e1 p1, s.view y = .queue l1 q1 e1 p1 → y ≠ x → ∀ k, (w.obj y).heap.Has k → m'.cell k = w.mem.cell k := by
    intro y l1 q1 e1 p1 hy hne k hk
    have hwf := (h.queue y l1 q1 e1 p1 hy).wf
    have := hwf.2
    exact out k (by unfold Sl.Has at hk; omega) (h.disj y x _ _ _ _ _ _ _ _ hy hx hne k hk)
  refine ⟨h.next, h.var, ?_, ?_, ?_, ?_, ?_⟩
  · intro i y hy
    by_cases hxy : y = x
    · subst hxy; rw [hviewx]; intro hc; cases hc
    · rw [hview y hxy]; exact h.bound i y hy
  · intro y hy
    have : y ≠ x := by have := hq.lt; simp only at hy; omega
    rw [hview y this]; exact h.absent y hy
  · intro y l1 q1 e1 p1 hy
    by_cases hxy : y = x
    · subst hxy
      rw [hviewx] at hy
      cases hy
      exact ⟨hq.lt, by simpa using hq.home, by simpa using hq.is, hq.weak, H', by simpa using st.wf, by simpa using st.read, by simpa using hu⟩
    · rw [hview y hxy] at hy
      have hk := h.queue y l1 q1 e1 p1 hy
      refine ⟨hk.lt, by simpa [hxy] using hk.home, by simpa [hxy] using hk.is, hk.weak, hk.heap, ?_, ?_, ?_⟩
      · simp only [hxy, if_false]; exact ⟨hk.wf.1, Nat.le_trans hk.wf.2 st.top⟩
      · simp only [hxy, if_false]
        rw [← hk.read]
        have hc := hk.wf.1
        unfold Sl.read
        apply List.map_congr_left
        intro i hi
        simp only [List.mem_range] at hi
        exact mine y _ _ _ _ hy hxy _ (by unfold Sl.Has; omega)
      · simp only [hxy, if_false]
        rw [← hk.unused]
        exact Sl.unused_congr (fun k h1 h2 => mine y _ _ _ _ hy hxy _ (by unfold Sl.Has; omega))
  · intro y k a n hy
    by_cases hxy : y = x
    · subst hxy; rw [hviewx] at hy; cases hy
    rw [hview y hxy] at hy
    obtain ⟨c1, c2, c3, c4, l1, q1, e1, p1, g1, g2, g3, g4, g5⟩ := h.copy y k a n hy
    have old : (w.obj y).heap.off < w.mem.top → (∀ z l q e past, s.view z = .queue l q e past → ¬ (w.obj z).heap.Has (w.obj y).heap.off) →
        m'.cell (w.obj y).heap.off = w.mem.cell (w.obj y).heap.off ∧ (w.obj y).heap.off < m'.top ∧
        ∀ z l1 q1 e1 p1, (s.set x (.queue l q' ((PQWOp.op o).leaves grow (.made l q) e ob) (o.pastAfter q e past))).view z = .queue l1 q1 e1 p1 →
          ¬ Sl.Has (if z = x then { w.obj z with heap := v' } else w.obj z).heap (w.obj y).heap.off := by
      intro ht hn
      refine ⟨out _ ht (hn x _ _ _ _ hx), Nat.lt_of_lt_of_le ht st.top, ?_⟩
      intro z l1 q1 e1 p1 hz
      by_cases hzx : z = x
      · simp only [hzx, if_true]
        intro hc
        rcases has _ hc with hc | hc
        · exact hn x _ _ _ _ hx hc
        · omega
      · rw [hview z hzx] at hz
        simp only [hzx, if_false]
        exact hn z _ _ _ _ hz
    by_cases hkx : k = x
    · subst hkx
      rw [hx] at g1
      cases g1
      rcases hpl with ⟨p, rfl, he, h1, h2, h3⟩ | ⟨hne, h1, h2⟩
      · have hpast : (PQOp.push p).pastAfter q e past = past ++ [q.head?] := by simp [PQOp.pastAfter, he]
        refine ⟨c1, by simpa [hxy] using c2, by simpa [hxy] using c3, by simpa [hxy] using c4, l, q', _, _, hviewx, by simpa [hxy] using g2, ?_, ?_, ?_⟩
        · rw [hpast]; simp; omega
        · intro h0 ha
          rw [hpast] at ha
          simp at ha
          omega
        · intro h0 ha
          rw [hpast] at ha ⊢
          simp only [hxy, if_false]
          by_cases hap : a < past.length
          · obtain ⟨b1, b2, b3⟩ := g5 h0 hap
            obtain ⟨d1, d2, d3⟩ := old b2 b3
            rw [List.getElem?_append_left hap, d1]
            rw [hpast] at d3
            exact ⟨b1, d2, d3⟩
          · have hap' : a = past.length := by omega
            obtain ⟨b1, b2⟩ := g4 h0 hap'
            have hwf := hq.wf
            have hf := Sl.first_slot w.mem (w.obj k).heap hwf.1 b2
            rw [hr, hq.unused, he, List.append_nil] at hf
            have ht : (w.obj k).heap.off < w.mem.top := by have := hwf.2; omega
            rw [b1]
            refine ⟨?_, Nat.lt_of_lt_of_le ht st.top, ?_⟩
            · rw [hap', h3 _ ht, List.getElem?_append_right (Nat.le_refl _)]
              simp [hf]
            · intro z l1 q1 e1 p1 hz
              by_cases hzx : z = k
              · simp only [hzx, if_true]
                unfold Sl.Has
                omega
              · rw [hpast] at hview
                rw [hview z hzx] at hz
                simp only [hzx, if_false]
                intro hc
                exact h.disj z k _ _ _ _ _ _ _ _ hz hx hzx _ hc (by unfold Sl.Has; omega)
      · have hpast : o.pastAfter q e past = past := by
          cases o <;> simp [PQOp.pastAfter]
          rename_i p
          intro he
          exact absurd he (hne p rfl)
        refine ⟨c1, by simpa [hxy] using c2, by simpa [hxy] using c3, by simpa [hxy] using c4, l, q', _, _, hviewx, by simpa [hxy] using g2, ?_, ?_, ?_⟩
        · rw [hpast]; exact g3
        · intro h0 ha
          rw [hpast] at ha
          obtain ⟨b1, b2⟩ := g4 h0 ha
          simp only [hxy, if_false, if_true]
          omega
        · intro h0 ha
          rw [hpast] at ha ⊢
          simp only [hxy, if_false]
          obtain ⟨b1, b2, b3⟩ := g5 h0 ha
          obtain ⟨d1, d2, d3⟩ := old b2 b3
          rw [d1]
          rw [hpast] at d3
          exact ⟨b1, d2, d3⟩
    · refine ⟨c1, by simpa [hxy] using c2, by simpa [hxy] using c3, by simpa [hxy] using c4, l1, q1, e1, p1, by rw [hview k hkx]; exact g1,
        by simpa [hxy, hkx] using g2, g3, ?_, ?_⟩
      · simpa only [hxy, hkx, if_false] using g4
      · intro h0 ha
        simp only [hxy, if_false]
        obtain ⟨b1, b2, b3⟩ := g5 h0 ha
        obtain ⟨d1, d2, d3⟩ := old b2 b3
        rw [d1]
        exact ⟨b1, d2, d3⟩
  · intro y z l1 q1 e1 p1 l2 q2 e2 p2 hy hz hne k hk
    by_cases hyx : y = x
    · have hzx : z ≠ x := fun e => hne (hyx.trans e.symm)
      rw [hview z hzx] at hz
      simp only [hyx, hzx, if_true, if_false] at hk ⊢
      rcases has k hk with hk | hk
      · exact h.disj x z _ _ _ _ _ _ _ _ hx hz (fun e => hzx e.symm) k hk
      · intro hz'
        have := (h.queue z _ _ _ _ hz).wf.2
        unfold Sl.Has at hz'; omega
    · rw [hview y hyx] at hy
      simp only [hyx, if_false] at hk
      by_cases hzx : z = x
      · simp only [hzx, if_true]
        intro hz'
        rcases has k hz' with hz' | hz'
        · exact h.disj y x _ _ _ _ _ _ _ _ hy hx hyx k hk hz'
        · have := (h.queue y _ _ _ _ hy).wf.2
          unfold Sl.Has at hk; omega
      · rw [hview z hzx] at hz
        simp only [hzx, if_false]
        exact h.disj y z _ _ _ _ _ _ _ _ hy hz hne k hk

omit [GoZero T] [GoOrd T] [LawfulGoOrd T] in
theorem PQCSpec.add_view (s : PQCSpec T) (i : Nat) (v : PQView T) {y : Nat} (h : y ≠ s.next) : (s.add i v).view y = s.view y := by simp [PQCSpec.add, h]

omit [GoZero T] [GoOrd T] [LawfulGoOrd T] in
theorem PQCSpec.add_new (s : PQCSpec T) (i : Nat) (v : PQView T) : (s.add i v).view s.next = v := by simp [PQCSpec.add]

omit [GoZero T] [GoOrd T] [LawfulGoOrd T] in
/-- A new object: nothing is written. -/
theorem PQCInv.grown {w : PQCWorld T} {s : PQCSpec T} (h : PQCInv w s) (i : Nat) (ob : PQObj T) (v : PQView T) (m' : Mem T) (ht : w.mem.top ≤ m'.top)
    (hm : ∀ k, k < w.mem.top → m'.cell k = w.mem.cell k) (hv : v ≠ .absent) (hfar : ∀ l q e past, v = .queue l q e past → ∀ k, ob.heap.Has k → w.mem.top ≤ k)
    (hqueue : ∀ l q e past, v = .queue l q e past → ob.home = w.next ∧ ob.impl.Is l ∧ StrictWeak l ∧ IsHeap l q ∧ ob.heap.WF m' ∧ ob.heap.read m' = q ∧ ob.heap.unused m' = e)
    (hcopy : ∀ k a n, v = .copy k a n → ob.home = k ∧ ob.heap.len = n ∧ ob.heap.len ≤ ob.heap.cap ∧
      ∃ l q e past, s.view k = .queue l q e past ∧ ob.impl = (w.obj k).impl ∧ a ≤ past.length ∧
        (0 < n → a = past.length → ob.heap.off = (w.obj k).heap.off ∧ 0 < (w.obj k).heap.cap) ∧
        (0 < n → a < past.length → past[a]? = some (some (w.mem.cell ob.heap.off)) ∧ ob.heap.off < w.mem.top ∧
          ∀ y l q e past, s.view y = .queue l q e past → ¬ (w.obj y).heap.Has ob.heap.off)) :
    PQCInv { mem := m', obj := fun y => if y = w.next then ob else w.obj y, next := w.next + 1, var := fun j => if j = i then some w.next else w.var j }
      (s.add i v) := by
  have hn := h.next
  have notnew : ∀ x l q e past, s.view x = .queue l q e past → x ≠ w.next := by
    intro x l q e past hx he
    have := (h.queue x l q e past hx).lt
    omega
  have far : ∀ p : Nat, p < w.mem.top → (∀ y l q e past, s.view y = .queue l q e past → ¬ (w.obj y).heap.Has p) →
      ∀ y l q e past, (s.add i v).view y = .queue l q e past → ¬ (if y = w.next then ob else w.obj y).heap.Has p := by
    intro p hp hno y l q e past hy
    by_cases hyn : y = w.next
    · rw [hyn, hn, s.add_new] at hy
      simp only [hyn, if_true]
      intro hc
      have := hfar _ _ _ _ hy p hc
      omega
    · rw [s.add_view i v (by omega)] at hy
      simp only [hyn, if_false]
      exact hno y _ _ _ _ hy
  refine ⟨by simp [PQCSpec.add, hn], ?_, ?_, ?_, ?_, ?_, ?_⟩
  · simp only [PQCSpec.add, hn, h.var]
  · intro j x hx
    simp only [PQCSpec.add] at hx
    by_cases hxn : x = s.next
    · rw [hxn, s.add_new]; exact hv
    · rw [s.add_view i v hxn]
      by_cases hj : j = i
      · simp only [hj, if_true] at hx; cases hx; exact absurd rfl hxn
      · simp only [hj, if_false] at hx; exact h.bound j x hx
  · intro x hx
    simp only at hx
    rw [s.add_view i v (by omega)]
    exact h.absent x (by omega)
  · intro x l q e past hx
    by_cases hxn : x = s.next
    · rw [hxn, s.add_new] at hx
      obtain ⟨a1, a2, a3, a4, a5, a6, a7⟩ := hqueue _ _ _ _ hx
      have hxw : x = w.next := by omega
      exact ⟨by simp only; omega, by simp only [hxw, if_true]; exact a1, by simp only [hxw, if_true]; exact a2, a3, a4, by simp only [hxw, if_true]; exact a5,
        by simp only [hxw, if_true]; exact a6, by simp only [hxw, if_true]; exact a7⟩
    · rw [s.add_view i v hxn] at hx
      have hxw : x ≠ w.next := by omega
      obtain ⟨a0, a1, a2, a3, a4, a5, a6, a7⟩ := h.queue x l q e past hx
      have hc := a5.1
      have ht' := a5.2
      refine ⟨by simp only; omega, by simp only [hxw, if_false]; exact a1, by simp only [hxw, if_false]; exact a2, a3, a4, ?_, ?_, ?_⟩
      · simp only [hxw, if_false]; exact ⟨hc, Nat.le_trans ht' ht⟩
      · simp only [hxw, if_false]
        rw [← a6]
        unfold Sl.read
        apply List.map_congr_left
        intro j hj
        simp only [List.mem_range] at hj
        exact hm _ (by omega)
      · simp only [hxw, if_false]
        rw [← a7]
        exact Sl.unused_congr (fun k _ _ => hm _ (by omega))
  · intro x k a n hx
    by_cases hxn : x = s.next
    · rw [hxn, s.add_new] at hx
      obtain ⟨a1, a2, a3, l, q, e, past, a4, a5, a6, a7, a8⟩ := hcopy _ _ _ hx
      have hxw : x = w.next := by omega
      have hkw := notnew _ _ _ _ _ a4
      refine ⟨by simp only; omega, by simp only [hxw, if_true]; exact a1, by simp only [hxw, if_true]; exact a2, by simp only [hxw, if_true]; exact a3, l, q, e, past,
        by rw [s.add_view i v (by omega)]; exact a4, by simp only [hxw, hkw, if_true, if_false]; exact a5, a6, by simp only [hxw, hkw, if_true, if_false]; exact a7, ?_⟩
      intro h0 ha
      obtain ⟨b1, b2, b3⟩ := a8 h0 ha
      simp only [hxw, if_true]
      rw [hm _ b2]
      exact ⟨b1, Nat.lt_of_lt_of_le b2 ht, far _ b2 b3⟩
    · rw [s.add_view i v hxn] at hx
      have hxw : x ≠ w.next := by omega
      obtain ⟨a0, a1, a2, a3, l, q, e, past, a4, a5, a6, a7, a8⟩ := h.copy x k a n hx
      have hkw := notnew _ _ _ _ _ a4
      refine ⟨by simp only; omega, by simp only [hxw, if_false]; exact a1, by simp only [hxw, if_false]; exact a2, by simp only [hxw, if_false]; exact a3, l, q, e, past,
        by rw [s.add_view i v (by omega)]; exact a4, by simp only [hxw, hkw, if_false]; exact a5, a6, by simp only [hxw, hkw, if_false]; exact a7, ?_⟩
      intro h0 ha
      obtain ⟨b1, b2, b3⟩ := a8 h0 ha
      simp only [hxw, if_false]
      rw [hm _ b2]
      exact ⟨b1, Nat.lt_of_lt_of_le b2 ht, far _ b2 b3⟩
  · intro x y l q e past l' q' e' past' hx hy hne k hk
    by_cases hxn : x = s.next
    · rw [hxn, s.add_new] at hx
      have hxw : x = w.next := by omega
      have hyn : y ≠ s.next := fun e => hne (hxn.trans e.symm)
      rw [s.add_view i v hyn] at hy
      have hyw : y ≠ w.next := by omega
      simp only [hxw, if_true] at hk
      simp only [hyw, if_false]
      intro hc
      have := hfar _ _ _ _ hx k hk
      have := (h.queue y _ _ _ _ hy).wf.2
      unfold Sl.Has at hc
      omega
    · rw [s.add_view i v hxn] at hx
      have hxw : x ≠ w.next := by omega
      simp only [hxw, if_false] at hk
      by_cases hyn : y = s.next
      · rw [hyn, s.add_new] at hy
        have hyw : y = w.next := by omega
        simp only [hyw, if_true]
        intro hc
        have := hfar _ _ _ _ hy k hc
        have := (h.queue x _ _ _ _ hx).wf.2
        unfold Sl.Has at hk
        omega
      · rw [s.add_view i v hyn] at hy
        have hyw : y ≠ w.next := by omega
        simp only [hyw, if_false]
        exact h.disj x y _ _ _ _ _ _ _ _ hx hy hne k hk

theorem PQCInv.make (grow : Nat → Nat → Nat) {w : PQCWorld T} {s : PQCSpec T} (h : PQCInv w s) (i : Nat) (o : PQWOp T) (hno : ∀ p, o ≠ .op p)
    (ho : ∀ less, o = .newFunc less → StrictWeak less) :
    ∃ l q, (w.make grow i o).1 = .unit ∧ PQMade o l q ∧ PQCInv (w.make grow i o).2 (s.add i (.queue l q [] [])) := by
  have hwf : Sl.empty.WF w.mem := (Fresh.nil w.mem).wf
  obtain ⟨ob, m', v', q', e, st, qs, ok⟩ := PQWOp.exec_step (P := fun _ => True) grow o trivial (fun _ _ => trivial) ho (impl := .nil) (q := .zero) hwf rfl rfl
  have hu := PQWOp.exec_unused grow o ho (impl := .nil) (q := .zero) hwf rfl rfl
  rw [e] at hu
  have main : ∀ l q, q' = .made l q → ob = .unit → PQMade o l q → o.leaves grow .zero (Sl.empty.unused w.mem) ob = ([] : List T) →
      ∃ l q, (w.make grow i o).1 = .unit ∧ PQMade o l q ∧ PQCInv (w.make grow i o).2 (s.add i (.queue l q [] [])) := by
    intro l q hq hob hmade hl
    subst hq
    rw [hl] at hu
    obtain ⟨ok1, ok2, ok3⟩ := ok
    refine ⟨l, q, by simp only [PQCWorld.make, e]; exact hob, hmade, ?_⟩
    simp only [PQCWorld.make, e]
    refine h.grown i ⟨v', o.implAfter .nil, w.next⟩ _ m' st.top ?_ (by intro hc; cases hc) ?_ ?_ (by intro k a n hc; cases hc)
    · intro k hk
      exact st.frame k hk (.inr (Nat.zero_le _))
    · intro l1 q1 e1 p1 _ k hk
      have := st.place
      simp only [Sl.empty] at this
      unfold Sl.Has at hk
      simp only at hk
      omega
    · intro l1 q1 e1 p1 hc
      cases hc
      exact ⟨rfl, ok1, ok2, ok3, st.wf, st.read, hu⟩
  cases o with
  | new => cases qs; exact main _ _ rfl rfl .new rfl
  | newFunc less => cases qs; exact main _ _ rfl rfl (.newFunc less) rfl
  | newOf xs =>
    cases qs with
    | newOf _ _ m hp => exact main _ _ rfl rfl (.newOf xs m hp (ok.2.2.minFirst ok.2.1)) rfl
  | op p => exact absurd rfl (hno p)

omit [GoZero T] [GoOrd T] [LawfulGoOrd T] in
/-- A method of a copy that does not use `impl`. -/
theorem PQCInv.cut {w : PQCWorld T} {s : PQCSpec T} (h : PQCInv w s) {x k a n : Nat} (hx : s.view x = .copy k a n) :
    PQCInv { w with obj := fun y => if y = x then { w.obj y with heap := { (w.obj x).heap with len := 0 } } else w.obj y } (s.set x (.copy k a 0)) := by
  have hne : ∀ y l q e past, s.view y = .queue l q e past → y ≠ x := by
    intro y l q e past hy he
    rw [he, hx] at hy
    cases hy
  have hview : ∀ y, y ≠ x → (s.set x (.copy k a 0)).view y = s.view y := by intro y hy; simp [PQCSpec.set, hy]
  have hviewx : (s.set x (.copy k a 0)).view x = .copy k a 0 := by simp [PQCSpec.set]
  have hqv : ∀ y l q e past, (s.set x (.copy k a 0)).view y = .queue l q e past → y ≠ x ∧ s.view y = .queue l q e past := by
    intro y l q e past hy
    by_cases hyx : y = x
    · rw [hyx, hviewx] at hy; cases hy
    · rw [hview y hyx] at hy; exact ⟨hyx, hy⟩
  refine ⟨h.next, h.var, ?_, ?_, ?_, ?_, ?_⟩
  · intro i y hy
    by_cases hyx : y = x
    · rw [hyx, hviewx]; intro hc; cases hc
    · rw [hview y hyx]; exact h.bound i y hy
  · intro y hy
    have : y ≠ x := by have := (h.copy x k a n hx).lt; simp only at hy; omega
    rw [hview y this]; exact h.absent y hy
  · intro y l q e past hy
    obtain ⟨hyx, hy⟩ := hqv _ _ _ _ _ hy
    obtain ⟨a0, a1, a2, a3, a4, a5, a6, a7⟩ := h.queue y l q e past hy
    exact ⟨a0, by simpa [hyx] using a1, by simpa [hyx] using a2, a3, a4, by simpa [hyx] using a5, by simpa [hyx] using a6, by simpa [hyx] using a7⟩
  · intro y k1 a1 n1 hy
    by_cases hyx : y = x
    · rw [hyx, hviewx] at hy
      cases hy
      obtain ⟨c0, c1, c2, c3, l, q, e, past, c4, c5, c6, c7, c8⟩ := h.copy x k a n hx
      have hkx := hne _ _ _ _ _ c4
      subst hyx
      exact ⟨c0, by simpa using c1, by simp, by simp, l, q, e, past, by rw [hview k hkx]; exact c4, by simpa [hkx] using c5, c6, fun h0 => absurd h0 (by omega), fun h0 => absurd h0 (by omega)⟩
    · rw [hview y hyx] at hy
      obtain ⟨c0, c1, c2, c3, l, q, e, past, c4, c5, c6, c7, c8⟩ := h.copy y k1 a1 n1 hy
      have hkx := hne _ _ _ _ _ c4
      refine ⟨c0, by simpa [hyx] using c1, by simpa [hyx] using c2, by simpa [hyx] using c3, l, q, e, past, by rw [hview k1 hkx]; exact c4, by simpa [hkx, hyx] using c5, c6,
        by simpa [hkx, hyx] using c7, ?_⟩
      intro h0 ha
      obtain ⟨b1, b2, b3⟩ := c8 h0 ha
      simp only [hyx, if_false]
      refine ⟨b1, b2, ?_⟩
      intro z l1 q1 e1 p1 hz
      obtain ⟨hzx, hz⟩ := hqv _ _ _ _ _ hz
      simp only [hzx, if_false]
      exact b3 z _ _ _ _ hz
  · intro y z l q e past l' q' e' past' hy hz hyz p hp
    obtain ⟨hyx, hy⟩ := hqv _ _ _ _ _ hy
    obtain ⟨hzx, hz⟩ := hqv _ _ _ _ _ hz
    simp only [hyx, hzx, if_false] at hp ⊢
    exact h.disj y z _ _ _ _ _ _ _ _ hy hz hyz p hp

omit [GoZero T] [GoOrd T] [LawfulGoOrd T] in
theorem PQCWorld.same (w : PQCWorld T) (x : Nat) : { w with obj := fun y => if y = x then { w.obj y with heap := (w.obj x).heap } else w.obj y } = w := by
  have : (fun y => if y = x then { w.obj y with heap := (w.obj x).heap } else w.obj y) = w.obj := by
    funext y
    by_cases hy : y = x
    · subst hy; simp
    · simp [hy]
  rw [this]

/-- One operation. -/
theorem PQCInv.step (grow : Nat → Nat → Nat) {w : PQCWorld T} {s : PQCSpec T} (h : PQCInv w s) (i : Nat) (op : PQCOp T)
    (ho : ∀ less, op = .base (.newFunc less) → StrictWeak less) :
    ∃ s', PQCStep grow s i op (w.step grow i op).1 s' ∧ PQCInv (w.step grow i op).2 s' := by
  have making : ∀ o : PQWOp T, (∀ p, o ≠ .op p) → op = .base o → w.step grow i op = w.make grow i o →
      ∃ s', PQCStep grow s i op (w.step grow i op).1 s' ∧ PQCInv (w.step grow i op).2 s' := by
    intro o hno hop he
    obtain ⟨l, q, e1, e2, e3⟩ := h.make grow i o hno (fun less hl => ho less (by rw [hop, hl]))
    rw [he, e1, hop]
    exact ⟨_, .make i o l q e2, e3⟩
  have hvar := h.var
  cases op with
  | copy j =>
    cases hj : s.var j with
    | none =>
      have e : w.step grow i (.copy j) = (.unit, { w with var := fun l => if l = i then none else w.var l }) := by
        simp only [PQCWorld.step, hvar, hj]
      rw [e]
      refine ⟨_, .copyZero i j hj, ⟨h.next, by simp only [hvar], ?_, h.absent, ?_, ?_, h.disj⟩⟩
      · intro l x hx
        simp only at hx
        by_cases hl : l = i
        · simp only [hl, if_true] at hx; cases hx
        · simp only [hl, if_false] at hx; exact h.bound l x hx
      · intro x l q e past hx
        obtain ⟨a0, a1, a2, a3, a4, a5, a6, a7⟩ := h.queue x l q e past hx
        exact ⟨a0, a1, a2, a3, a4, a5, a6, a7⟩
      · intro x k a n hx
        obtain ⟨c0, c1, c2, c3, c4⟩ := h.copy x k a n hx
        exact ⟨c0, c1, c2, c3, c4⟩
    | some x =>
      have e : w.step grow i (.copy j) = (.unit, { w with obj := fun y => if y = w.next then w.obj x else w.obj y, next := w.next + 1, var := fun l => if l = i then some w.next else w.var l }) := by
        simp only [PQCWorld.step, hvar, hj]
      rw [e]
      have hb := h.bound j x hj
      cases hx : s.view x with
      | absent => exact absurd hx hb
      | queue l q e past =>
        refine ⟨_, .copyQueue i j x l q e past hj hx, ?_⟩
        obtain ⟨a0, a1, a2, a3, a4, a5, a6, a7⟩ := h.queue x l q e past hx
        refine h.grown i (w.obj x) _ w.mem (Nat.le_refl _) (fun _ _ => rfl) (by intro hc; cases hc) (by intro _ _ _ _ hc; cases hc)
          (by intro _ _ _ _ hc; cases hc) ?_
        intro k a n hc
        cases hc
        have hlen : (w.obj x).heap.len = q.length := by rw [← a6]; simp
        have hc' := a5.1
        exact ⟨a1, hlen, hc', l, q, e, past, hx, rfl, Nat.le_refl _, fun h0 _ => ⟨rfl, by omega⟩, fun _ hlt => absurd hlt (Nat.lt_irrefl _)⟩
      | copy k a n =>
        refine ⟨_, .copyCopy i j x k a n hj hx, ?_⟩
        obtain ⟨c0, c1, c2, c3, c4⟩ := h.copy x k a n hx
        refine h.grown i (w.obj x) _ w.mem (Nat.le_refl _) (fun _ _ => rfl) (by intro hc; cases hc) (by intro _ _ _ _ hc; cases hc)
          (by intro _ _ _ _ hc; cases hc) ?_
        intro k' a' n' hc
        cases hc
        exact ⟨c1, c2, c3, c4⟩
  | base o =>
    cases o with
    | new => exact making .new (fun p hp => nomatch hp) rfl rfl
    | newFunc less => exact making (.newFunc less) (fun p hp => nomatch hp) rfl rfl
    | newOf xs => exact making (.newOf xs) (fun p hp => nomatch hp) rfl rfl
    | op o =>
      cases hi : s.var i with
      | none =>
        have e : w.step grow i (.base (.op o)) = ((PQM.exec grow .nil { mem := w.mem, st := (), heap := Sl.empty } o).1, w) := by
          simp only [PQCWorld.step, hvar, hi]
        rw [e]
        obtain ⟨ob, m', v', q', e1, st, qs, ok⟩ := PQWOp.exec_step (P := fun _ => True) grow (.op o) trivial (fun _ _ => trivial) (fun less e => nomatch e)
          (impl := .nil) (q := .zero) (Fresh.nil w.mem).wf rfl rfl
        have e2 : (PQM.exec grow .nil { mem := w.mem, st := (), heap := Sl.empty } o).1 = ob := by
          have : (PQWOp.exec grow .nil ⟨w.mem, (), Sl.empty⟩ (.op o)).1 = ob := by rw [e1]
          exact this
        rw [e2]
        have hz : q' = .zero := by cases qs <;> rfl
        rw [hz] at qs
        exact ⟨s, .zero i o ob hi qs, h⟩
      | some x =>
        have e0 : w.step grow i (.base (.op o)) = w.call grow x o := by simp only [PQCWorld.step, hvar, hi]
        rw [e0]
        have hb := h.bound i x hi
        cases hx : s.view x with
        | absent => exact absurd hx hb
        | queue l q e past =>
          obtain ⟨ob, r, q', e1, e2, e3, e4⟩ := h.onQueue grow hx o
          have ht : w.target x o = x := by
            have := (h.queue x l q e past hx).home
            cases o <;> first | exact this | rfl
          have e5 : w.call grow x o = (ob, { w with mem := r.mem, obj := fun y => if y = x then { w.obj y with heap := r.heap } else w.obj y }) := by
            simp only [PQCWorld.call, ht, e1]
          rw [e5]
          exact ⟨_, .queue i x o ob l q e past q' hi hx e2 e3, e4⟩
        | copy k a n =>
          obtain ⟨c0, c1, c2, c3, l, q, e, past, c4, c5, c6, c7, c8⟩ := h.copy x k a n hx
          have through : w.target x o = k → ∃ ob r q', PQStep l q o ob q' ∧ MinFirst l q' ∧
              w.call grow x o = (ob, { w with mem := r, obj := (w.call grow x o).2.obj }) ∧
              PQCInv (w.call grow x o).2 (s.set k (.queue l q' ((PQWOp.op o).leaves grow (.made l q) e ob) (o.pastAfter q e past))) := by
            intro ht
            obtain ⟨ob, r, q', e1, e2, e3, e4⟩ := h.onQueue grow c4 o
            have e5 : w.call grow x o = (ob, { w with mem := r.mem, obj := fun y => if y = k then { w.obj y with heap := r.heap } else w.obj y }) := by
              simp only [PQCWorld.call, ht, c5, e1]
            rw [e5]
            exact ⟨ob, r.mem, q', e2, e3, rfl, e4⟩
          have hget : ∀ ob v, PQM.exec grow (w.obj x).impl { mem := w.mem, st := (), heap := (w.obj x).heap } o = (ob, ⟨w.mem, (), v⟩) → w.target x o = x →
              w.call grow x o = (ob, { w with obj := fun y => if y = x then { w.obj y with heap := v } else w.obj y }) := by
            intro ob v he ht
            simp only [PQCWorld.call, ht, he]
          cases o with
          | push p =>
            obtain ⟨ob, r, q', f1, f2, f3, f4⟩ := through c1
            have hob : (w.call grow x (.push p)).1 = ob := by rw [f3]
            cases f1 with
            | push _ _ _ hp =>
              rw [hob]
              exact ⟨_, .push i x k a n p l q e past q' hi hx c4 (.push _ _ _ hp) f2, f4⟩
          | pop =>
            obtain ⟨ob, r, q', f1, f2, f3, f4⟩ := through c1
            have hob : (w.call grow x .pop).1 = ob := by rw [f3]
            rw [hob]
            exact ⟨_, .pop i x k a n ob l q e past q' hi hx c4 f1 f2, f4⟩
          | len =>
            rw [hget (.num (w.obj x).heap.len) _ rfl rfl, w.same, c2]
            exact ⟨s, .len i x k a n hi hx, h⟩
          | isEmpty =>
            rw [hget (.flag ((w.obj x).heap.len == 0)) _ rfl rfl, w.same, c2]
            have : (n == 0) = decide (n = 0) := by cases n <;> rfl
            rw [this]
            exact ⟨s, .isEmpty i x k a n hi hx, h⟩
          | clear =>
            have e9 := Sl.slice_zero (w.obj x).heap w.mem 0 (Nat.zero_le _)
            simp only [Int.natCast_zero] at e9
            rw [hget .unit { (w.obj x).heap with len := 0 } (HS.observe_ok (f := fun _ => .unit) (x := PQM.clear) (a := ())
              (by simp only [PQM.clear, GoM.bind_def, HS.recv, HS.on, e9, HS.assign])) rfl]
            exact ⟨_, .clear i x k a n hi hx, h.cut hx⟩
          | top =>
            by_cases hn : n = 0
            · have eg : (w.obj x).heap.get 0 w.mem = .panic w.mem := Sl.get_panic _ _ _ (by omega)
              rw [hget .panicked (w.obj x).heap (HS.observe_panic (by simp only [PQM.top, GoM.bind_def, HS.recv, HS.on, eg])) rfl, w.same]
              rw [hn] at hx
              exact ⟨s, .topEmpty i x k a hi hx, h⟩
            · have eg : (w.obj x).heap.get 0 w.mem = .ok (w.mem.cell (w.obj x).heap.off) w.mem := by
                have := Sl.get_ok (w.obj x).heap w.mem 0 (by omega)
                simpa [Sl.read_getElem] using this
              rw [hget (.val (w.mem.cell (w.obj x).heap.off)) (w.obj x).heap (HS.observe_ok (by simp only [PQM.top, GoM.bind_def, HS.recv, HS.on, eg])) rfl, w.same]
              obtain ⟨n, rfl⟩ : ∃ n', n = n' + 1 := ⟨n - 1, by omega⟩
              refine ⟨s, .top i x k a n l q e past _ hi hx c4 ?_, h⟩
              unfold firstSlot
              by_cases ha : a < past.length
              · rw [if_pos ha, (c8 (by omega) ha).1]; rfl
              · rw [if_neg ha]
                obtain ⟨b1, b2⟩ := c7 (by omega) (by omega)
                obtain ⟨a0, a1, a2, a3, a4, a5, a6, a7⟩ := h.queue k l q e past c4
                have := Sl.first_slot w.mem (w.obj k).heap a5.1 b2
                rw [a6, a7] at this
                rw [this, b1]

/-- Every history. -/
theorem PQCInv.run (grow : Nat → Nat → Nat) (ops : List (Nat × PQCOp T)) : ∀ {w : PQCWorld T} {s : PQCSpec T}, PQCInv w s → PQCOp.Orders ops →
    ∃ s', PQCRun grow s ops (w.run grow ops).1 s' ∧ PQCInv (w.run grow ops).2 s' := by
  induction ops with
  | nil => intro w s h _; exact ⟨s, .nil s, h⟩
  | cons o ops ih =>
    intro w s h ho
    obtain ⟨i, op⟩ := o
    obtain ⟨s1, e1, h1⟩ := h.step grow i op (fun less hl => ho i less (by simp [hl]))
    obtain ⟨s2, e2, h2⟩ := ih h1 (fun j less hm => ho j less (by simp [hm]))
    exact ⟨s2, .cons _ _ _ _ _ _ _ _ e1 e2, h2⟩

end Stl4go
