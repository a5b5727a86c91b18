import Verif.Proofs.VectorRun
import Verif.Spec.VectorCursor
/-! # Lemmas about vector iterators while the vectors change -/
namespace Stl4go
variable {T : Type} [GoZero T]

/-! ## One operation, exactly -/

theorem Sl.append_exact (grow : Nat → Nat → Nat) (v : Sl) (ys : List T) (m : Mem T) :
    ∃ v' m', v.append grow ys m = .ok v' m'
      ∧ (v.len + ys.length ≤ v.cap → VStay m v m' v' (v.read m ++ ys))
      ∧ (v.cap < v.len + ys.length → VMove m m' v' (v.read m ++ ys) (max (v.len + ys.length) (grow v.cap (v.len + ys.length)))) := by
  by_cases hc : v.len + ys.length ≤ v.cap
  · refine ⟨{ v with len := v.len + ys.length }, m.write v.off (v.read m ++ ys), ?_, fun _ => ?_, fun h => by omega⟩
    · unfold Sl.append
      simp only [if_pos hc]
      have := Mem.write_append m v.off (v.read m) ys
      rw [Sl.write_read] at this
      simp only [Sl.read_length] at this
      rw [this]
    · have := VStay.write (m := m) (v := v) (v.read m ++ ys) (by simpa using hc)
      rw [show v.len - (v.read m ++ ys).length = 0 by simp] at this
      simpa using this
  · refine ⟨_, _, by unfold Sl.append; simp only [if_neg hc]; rfl, fun h => absurd h hc, fun _ => ?_⟩
    have := VMove.alloc m (v.read m ++ ys) (max (v.len + ys.length) (grow v.cap (v.len + ys.length))) (by simp; omega)
    simpa using this

/-- What an operation does to the memory and to the vector. -/
def VExact (grow : Nat → Nat → Nat) (op : VOp T) (s : List T) (m : Mem T) (v : Sl) (m' : Mem T) (v' : Sl) : Prop :=
  (op.moves v.cap s = true → VMove m m' v' (VSeq.step s op).2 (op.newCap grow v.cap s))
    ∧ (op.moves v.cap s = false → VStay m v m' v' (VSeq.step s op).2)

theorem Vec.cut_exact (grow : Nat → Nat → Nat) (i j : Int) (hij : i ≤ j) {m : Mem T} {v : Sl} {s : List T} (h : v.WF m) (hs : v.read m = s) :
    ∃ m' v', VS.observe (fun _ => DObs.unit) (Vec.removeRange grow i j) ⟨m, v⟩ = ((VSeq.cut s i j).1, ⟨m', v'⟩) ∧ VStay m v m' v' (VSeq.cut s i j).2 := by
  have hl : s.length = v.len := by rw [← hs]; simp
  unfold VSeq.cut
  by_cases hc : 0 ≤ i ∧ j ≤ v.len
  · rw [if_pos (by omega)]
    obtain ⟨a, rfl⟩ : ∃ n : Nat, i = n := ⟨i.toNat, by omega⟩
    obtain ⟨b, rfl⟩ : ∃ n : Nat, j = n := ⟨j.toNat, by omega⟩
    obtain ⟨m', v', e, _, st⟩ := Vec.removeRange_step grow a b h (by omega) (by omega)
    exact ⟨m', v', by simp [VS.observe, e], by rw [hs] at st; simpa using st⟩
  · rw [if_neg (by omega)]
    refine ⟨m, v, by simp [VS.observe, Vec.removeRange_panic grow i j hij hc], ?_⟩
    subst hs
    exact VStay.refl h

theorem Vec.exec_exact (grow : Nat → Nat → Nat) (op : VOp T) (hv : op.Valid) {m : Mem T} {v : Sl} {s : List T} (h : v.WF m) (hs : v.read m = s) :
    ∃ m' v', Vec.exec grow ⟨m, v⟩ op = ((VSeq.step s op).1, ⟨m', v'⟩) ∧ VExact grow op s m v m' v' := by
  have hl : s.length = v.len := by rw [← hs]; simp
  have stay : VStay m v m v s := by subst hs; exact VStay.refl h
  have h1 := h.1
  have h2 := h.2
  obtain ⟨mo, vo, eo, _⟩ := Vec.exec_step grow op hv h hs
  refine ⟨mo, vo, eo, ?_⟩
  -- the results of the operation
  have key : ∀ {m' : Mem T} {v' : Sl} {o : DObs T}, Vec.exec grow ⟨m, v⟩ op = (o, ⟨m', v'⟩) → VExact grow op s m v m' v' → VExact grow op s m v mo vo := by
    intro m' v' o e g
    rw [eo] at e
    cases e
    exact g
  have same : op.moves v.cap s = false → (VSeq.step s op).2 = s → Vec.exec grow ⟨m, v⟩ op = ((VSeq.step s op).1, ⟨m, v⟩) → VExact grow op s m v mo vo := by
    intro hm hq e
    refine key e ⟨fun h => ?_, fun _ => by rw [hq]; exact stay⟩
    rw [hm] at h
    exact absurd h (by simp)
  have hnil : v.len = 0 → s = [] := fun h0 => List.eq_nil_of_length_eq_zero (by omega)
  cases op with
  | make =>
    refine key (o := .unit) (m' := m) (v' := Sl.empty) rfl ⟨fun _ => ?_, fun h => by simp [VOp.moves] at h⟩
    exact ⟨rfl, rfl, Nat.le_refl _, .inr rfl, Nat.zero_le _, Nat.le_refl _, rfl, fun _ _ => rfl⟩
  | makeCap c =>
    by_cases hc : 0 ≤ c
    · obtain ⟨n, rfl⟩ : ∃ n : Nat, c = n := ⟨c.toNat, by omega⟩
      have e1 := Sl.make_ok (T := T) 0 n (by omega) m
      simp only [Int.natCast_zero] at e1
      refine key (o := .unit) (by simp [Vec.exec, VS.observe, Vec.makeCap, GoM.bind_def, VS.on_ok e1]; exact ⟨rfl, rfl⟩)
        ⟨fun _ => ?_, fun h => by simp [VOp.moves] at h⟩
      have := VMove.alloc m [] n (by simp)
      simpa [VSeq.step, VOp.newCap] using this
    · refine same (by simp [VOp.moves]; omega) (by simp [VSeq.step, hc]) ?_
      simp [VSeq.step, Vec.exec, VS.observe, Vec.makeCap_panic c (by omega), hc]
  | of xs =>
    obtain ⟨m', v', e, _, st⟩ := Vec.of_step xs (m := m) (v := v)
    exact key (o := .unit) (by simp [Vec.exec, VS.observe, e]) ⟨fun _ => st, fun h => by simp [VOp.moves] at h⟩
  | len => exact same rfl rfl (by simp [VSeq.step, Vec.exec, VS.observe, Vec.len, GoM.bind_def, GoM.pure_apply, hl])
  | isEmpty =>
    refine same rfl rfl ?_
    have : s.isEmpty = (v.len == 0) := by
      cases s with
      | nil => simp at hl; simp [← hl]
      | cons a b => simp at hl; simp [← hl]
    simp [VSeq.step, Vec.exec, VS.observe, Vec.isEmpty, GoM.bind_def, GoM.pure_apply, this]
  | clear =>
    obtain ⟨m', e, _, st⟩ := Vec.clear_step h
    exact key (o := .unit) (m' := m') (by simp [Vec.exec, VS.observe, e]) ⟨fun h => by simp [VOp.moves] at h, fun _ => st⟩
  | reserve l =>
    obtain ⟨m', v', e, _, _, hin, _, hout⟩ := Vec.reserve_step l h
    refine key (o := .unit) (by simp [Vec.exec, VS.observe, e]; exact ⟨rfl, rfl⟩) ⟨fun h => ?_, fun h => ?_⟩
    · have := hout (by simpa [VOp.moves] using h)
      rw [hs] at this
      exact this
    · obtain ⟨rfl, rfl⟩ := hin (by simpa [VOp.moves] using h)
      exact stay
  | shrink =>
    by_cases hc : v.cap > v.len
    · have el : v.load m = .ok s m := by rw [← hs]; rfl
      obtain ⟨v', m', e, hin, hout⟩ := Sl.append_exact grow Sl.empty s m
      refine key (o := .unit) (m' := m') (v' := v') ?_ ⟨fun _ => ?_, fun h => by simp [VOp.moves] at h; omega⟩
      · simp only [Vec.exec, VS.observe, Vec.shrink, GoM.bind_def, VS.recv_apply]
        rw [if_pos hc]
        simp [GoM.bind_def, VS.on_ok el, VS.on_ok e]
      · simp only [VOp.newCap, VSeq.step]
        have hE : Sl.empty.read m ++ s = s := by simp [Sl.read, Sl.empty]
        rw [hE] at hin hout
        simp only [Sl.empty, Nat.zero_add] at hin hout
        by_cases h0 : s.length = 0
        · rw [if_pos h0]
          have st := hin (by omega)
          have hv' := st.eq
          have : s = [] := List.eq_nil_of_length_eq_zero h0
          subst this
          subst hv'
          refine ⟨rfl, rfl, Nat.le_refl _, .inr rfl, Nat.zero_le _, st.top, rfl, fun k hk => ?_⟩
          rw [st.cells k hk]
          simp
        · rw [if_neg h0]
          exact hout (by omega)
    · refine same (by simp [VOp.moves]; omega) rfl ?_
      simp only [Vec.exec, VS.observe, Vec.shrink, GoM.bind_def, VS.recv_apply]
      rw [if_neg hc]; rfl
  | «at» i =>
    by_cases hc : 0 ≤ i ∧ i < v.len
    · obtain ⟨n, rfl⟩ : ∃ n : Nat, i = n := ⟨i.toNat, by omega⟩
      have e := Vec.at_ok n (m := m) (v := v) (by simp; omega)
      refine same rfl ?_ ?_ <;> simp only [VSeq.step, Vec.exec] <;> rw [dif_pos (by omega)]
      simp [VS.observe, e, hs]
    · refine same rfl ?_ ?_ <;> simp only [VSeq.step, Vec.exec] <;> rw [dif_neg (by omega)]
      simp [VS.observe, Vec.at_panic i hc]
  | set i x =>
    by_cases hc : 0 ≤ i ∧ i < v.len
    · obtain ⟨n, rfl⟩ : ∃ n : Nat, i = n := ⟨i.toNat, by omega⟩
      obtain ⟨m', e, _, st⟩ := Vec.set_step n x h (by omega)
      refine key (o := .unit) (by simp [Vec.exec, VS.observe, e]; exact ⟨rfl, rfl⟩) ⟨fun h => by simp [VOp.moves] at h, fun _ => ?_⟩
      simp only [VSeq.step]
      rw [if_pos (by omega)]
      rw [hs] at st
      simpa using st
    · refine same rfl ?_ ?_ <;> simp only [VSeq.step, Vec.exec] <;> rw [if_neg (by omega)]
      simp [VS.observe, Vec.set_panic i x hc]
  | pushBack x =>
    obtain ⟨v', m', e, hin, hout⟩ := Sl.append_exact grow v [x] m
    rw [hs] at hin hout
    refine key (o := .unit) (m' := m') (v' := v') (by simp [Vec.exec, VS.observe, Vec.pushBack, GoM.bind_def, VS.on_ok e]) ⟨fun h => ?_, fun h => ?_⟩
    · have h : v.cap < s.length + 1 := by simpa [VOp.moves] using h
      have := hout (by simp; omega)
      simp only [VOp.newCap, VSeq.step, hl]
      simpa using this
    · have h : s.length + 1 ≤ v.cap := by simpa [VOp.moves] using h
      exact hin (by simp; omega)
  | popBack =>
    by_cases h0 : v.len = 0
    · have := hnil h0
      subst this
      exact same rfl rfl (by simp [VSeq.step, Vec.exec, VS.observe, Vec.popBack_panic h0])
    · obtain ⟨m', v', s', x, es, e, _, st⟩ := Vec.popBack_step h (by omega)
      refine key (o := .val x) (by simp [Vec.exec, VS.observe, e]; exact ⟨rfl, rfl⟩) ⟨fun h => by simp [VOp.moves] at h, fun _ => ?_⟩
      rw [← hs, es]
      simp only [VSeq.step, (getLast?_split s' x).1, (getLast?_split s' x).2]
      exact st
  | tryPopBack =>
    by_cases h0 : v.len = 0
    · have := hnil h0
      subst this
      exact same rfl rfl (by simp [VSeq.step, Vec.exec, VS.observe, Vec.tryPopBack, Vec.isEmpty, GoM.bind_def, GoM.pure_apply, h0])
    · obtain ⟨m', v', s', x, es, e, _, st⟩ := Vec.popBack_step h (by omega)
      refine key (o := .try_ x true)
        (by simp [Vec.exec, VS.observe, Vec.tryPopBack, Vec.isEmpty, GoM.bind_def, GoM.pure_apply, h0, e]; exact ⟨rfl, rfl⟩)
        ⟨fun h => by simp [VOp.moves] at h, fun _ => ?_⟩
      rw [← hs, es]
      simp only [VSeq.step, (getLast?_split s' x).1, (getLast?_split s' x).2]
      exact st
  | back =>
    by_cases h0 : v.len = 0
    · have := hnil h0
      subst this
      exact same rfl rfl (by simp [VSeq.step, Vec.exec, VS.observe, Vec.back_panic h0])
    · obtain ⟨s', x, es, _, hg⟩ := Sl.last_split m v (by omega)
      rw [hs] at es
      refine same rfl ?_ ?_
      · rw [es]; simp only [VSeq.step, (getLast?_split s' x).1]
      · rw [es]
        simp only [VSeq.step, (getLast?_split s' x).1]
        simp [Vec.exec, VS.observe, Vec.back, GoM.bind_def, VS.on_ok hg]
  | append xs =>
    obtain ⟨x, m1, e1, hF, ho, hr, hlx, _⟩ := Sl.lit_fresh xs m
    have k := VStep.keep h hF.top hF.keep
    have el : x.load m1 = .ok xs m1 := by rw [← hr]; rfl
    obtain ⟨v', m', e, hin, hout⟩ := Sl.append_exact grow v xs m1
    rw [k.read, hs] at hin hout
    refine key (o := .unit) (m' := m') (v' := v') (by simp [Vec.exec, VS.observe, GoM.bind_def, VS.on_ok e1, Vec.append, VS.on_ok el, VS.on_ok e]) ⟨fun h => ?_, fun h => ?_⟩
    · have h : v.cap < s.length + xs.length := by simpa [VOp.moves] using h
      have := hout (by omega)
      rw [← hl] at this
      exact VMove.after hF.top hF.keep this
    · have h : s.length + xs.length ≤ v.cap := by simpa [VOp.moves] using h
      exact VStay.after hF.top hF.keep (hin (by omega))
  | insert i xs =>
    obtain ⟨x, m1, e1, hF, ho, hr, hlx, _⟩ := Sl.lit_fresh xs m
    have k := VStep.keep h hF.top hF.keep
    by_cases hc : 0 ≤ i ∧ i ≤ v.len
    · obtain ⟨n, rfl⟩ : ∃ n : Nat, i = n := ⟨i.toNat, by omega⟩
      have hstep : (VSeq.step s (.insert (n : Int) xs)).2 = s.take n ++ xs ++ s.drop n := by
        simp only [VSeq.step]
        rw [if_pos (by omega)]
        simp
      by_cases hcap : v.len + xs.length ≤ v.cap
      · obtain ⟨m', v', e, _, st⟩ := Vec.insert_step n x k.wf hF.wf (by omega) (fun hle => .inr (by omega))
        rw [k.read, hr, hs] at st
        refine key (o := .unit) (by simp [Vec.exec, VS.observe, GoM.bind_def, VS.on_ok e1, e]; exact ⟨rfl, rfl⟩)
          ⟨fun h => by simp [VOp.moves] at h; omega, fun _ => ?_⟩
        rw [hstep]
        exact VStay.after hF.top hF.keep (st (by omega))
      · obtain ⟨m', v', e, _, _, st⟩ := Vec.insert_grow n x k.wf hF.wf (by omega) (by omega)
        rw [k.read, hr, hs] at st
        refine key (o := .unit) (by simp [Vec.exec, VS.observe, GoM.bind_def, VS.on_ok e1, e]; exact ⟨rfl, rfl⟩)
          ⟨fun _ => ?_, fun h => by simp [VOp.moves] at h; omega⟩
        rw [hstep]
        simp only [VOp.newCap, hl]
        rw [hlx] at st
        exact VMove.after hF.top hF.keep st
    · obtain ⟨m', e, _, hk⟩ := Vec.insert_panic i x k.wf hc
      obtain ⟨_, ht⟩ : True ∧ m1.top ≤ m'.top := ⟨trivial, by
        obtain ⟨m'', e', st, _⟩ := Vec.insert_panic i x k.wf hc
        rw [e] at e'
        cases e'
        exact st.top⟩
      refine key (o := .panicked) (by simp [Vec.exec, VS.observe, GoM.bind_def, VS.on_ok e1, e]; exact ⟨rfl, rfl⟩)
        ⟨fun h => by simp [VOp.moves] at h; omega, fun _ => ?_⟩
      simp only [VSeq.step]
      rw [if_neg (by omega)]
      have hF' := hF.top
      refine ⟨stay.eq, stay.fits, by omega, fun c hk' => ?_⟩
      rw [hk c (by omega), hF.keep c hk', stay.cells c hk']
  | remove i =>
    obtain ⟨m', v', e, st⟩ := Vec.cut_exact grow i (i + 1) (by omega) h hs
    exact key e ⟨fun h => by simp [VOp.moves] at h, fun _ => st⟩
  | removeRange i j =>
    obtain ⟨m', v', e, st⟩ := Vec.cut_exact grow i j hv h hs
    exact key e ⟨fun h => by simp [VOp.moves] at h, fun _ => st⟩
  | removeLength i n =>
    obtain ⟨m', v', e, st⟩ := Vec.cut_exact grow i (i + n) (by have : 0 ≤ n := hv; omega) h hs
    exact key e ⟨fun h => by simp [VOp.moves] at h, fun _ => st⟩
  | removeIf cond =>
    obtain ⟨m', v', e, _, st⟩ := Vec.removeIf_step (seenCond cond) [] h
    rw [hs] at st
    exact key (o := .unit) (by simp [Vec.exec, VS.observe, e]) ⟨fun h => by simp [VOp.moves] at h, fun _ => st⟩
  | values =>
    refine same rfl rfl ?_
    have := VIter.collect_all v m (v.len + 1) (by omega)
    rw [hs] at this
    simp [VSeq.step, Vec.exec, VS.observe, Vec.iterate, GoM.bind_def, GoM.pure_apply, VS.on_ok this]

/-! ## Arrays and memory -/

/-- The iterator of the model for a cursor. `base` says where the arrays are. -/
def VCur.iter (a : VArrays T) (base : Nat → Nat → Nat) (c : VCur) : VIter :=
  { v := { off := base c.i c.g + c.lo, len := c.n, cap := (a.arr c.i c.g).length - c.lo }, i := c.pos }

structure VISim (a : VArrays T) (cs : List VCur) (s : VIWorld T) (base : Nat → Nat → Nat) : Prop where
  inside : ∀ i g, g ≤ a.gen i → base i g + (a.arr i g).length ≤ s.w.mem.top
  cells : ∀ i g, g ≤ a.gen i → ∀ k (h : k < (a.arr i g).length), s.w.mem.cell (base i g + k) = (a.arr i g)[k]
  apart : ∀ i g j h, g ≤ a.gen i → h ≤ a.gen j → ¬ (i = j ∧ g = h) →
    ∀ k, k < (a.arr i g).length → ∀ l, l < (a.arr j h).length → base i g + k ≠ base j h + l
  vars : ∀ i, s.w.vars i = { off := base i (a.gen i), len := a.len i, cap := a.cap i }
  fits : ∀ i, a.len i ≤ a.cap i
  its : s.its = cs.map (VCur.iter a base)
  curs : ∀ c ∈ cs, c.g ≤ a.gen c.i ∧ c.lo + c.n ≤ (a.arr c.i c.g).length

omit [GoZero T] in
theorem VArrays.put_same (a : VArrays T) (i g : Nat) (l : List T) : (a.put i g l).arr i g = l := by simp [VArrays.put]

omit [GoZero T] in
theorem VArrays.put_other (a : VArrays T) (i g j h : Nat) (l : List T) (hn : ¬ (j = i ∧ h = g)) : (a.put i g l).arr j h = a.arr j h := by
  simp only [VArrays.put, if_neg hn]

omit [GoZero T] in
theorem VArrays.put_length (a : VArrays T) (i g : Nat) (l : List T) (hl : l.length = (a.arr i g).length) (j h : Nat) :
    ((a.put i g l).arr j h).length = (a.arr j h).length := by
  by_cases hn : j = i ∧ h = g
  · obtain ⟨rfl, rfl⟩ := hn
    rw [VArrays.put_same, hl]
  · rw [VArrays.put_other _ _ _ _ _ _ hn]

omit [GoZero T] in
/-- The contents of one array change, and perhaps the length of one vector. -/
theorem VISim.put {a : VArrays T} {cs : List VCur} {s : VIWorld T} {base : Nat → Nat → Nat} (S : VISim a cs s base) (i g : Nat) (hg : g ≤ a.gen i)
    (l : List T) (hl : l.length = (a.arr i g).length) (m' : Mem T) (ht : s.w.mem.top ≤ m'.top)
    (hin : ∀ k (h : k < l.length), m'.cell (base i g + k) = l[k])
    (hout : ∀ k, k < s.w.mem.top → (∀ d, d < l.length → k ≠ base i g + d) → m'.cell k = s.w.mem.cell k)
    (len' : Nat → Nat) (hlen : ∀ j, len' j ≤ a.cap j) :
    VISim { a.put i g l with len := len' } cs
      { w := { mem := m', vars := fun j => { off := base j (a.gen j), len := len' j, cap := a.cap j } }, its := s.its } base := by
  have hL : ∀ j h, ((a.put i g l).arr j h).length = (a.arr j h).length := VArrays.put_length a i g l hl
  refine ⟨?_, ?_, ?_, ?_, ?_, ?_, ?_⟩
  · intro j h hh
    have := S.inside j h hh
    simp only [hL]
    omega
  · intro j h hh k hk
    by_cases hn : j = i ∧ h = g
    · obtain ⟨rfl, rfl⟩ := hn
      simp only [VArrays.put_same] at hk ⊢
      exact hin k hk
    · simp only [VArrays.put_other _ _ _ _ _ _ hn] at hk ⊢
      have h1 := S.inside j h hh
      rw [hout _ (by omega) ?_]
      · exact S.cells j h hh k hk
      · intro d hd
        exact S.apart j h i g hh hg (by simpa using hn) k hk d (by omega)
  · intro j h j' h' hh hh' hn k hk d hd
    simp only [hL] at hk hd
    exact S.apart j h j' h' hh hh' hn k hk d hd
  · intro j
    simp only [VArrays.cap, VArrays.now]
    congr 1
    exact (hL j _).symm
  · intro j
    have := hlen j
    simp only [VArrays.cap, VArrays.now, hL] at this ⊢
    exact this
  · rw [S.its]
    refine List.map_congr_left (fun c _ => ?_)
    simp [VCur.iter, hL]
  · intro c hc
    have := S.curs c hc
    simp only [hL]
    exact this

theorem rewritten_length (l : List T) (n : Nat) (s : List T) (hn : n ≤ l.length) (hs : s.length ≤ l.length) : (rewritten l n s).length = l.length := by
  simp [rewritten, padded]; omega

omit [GoZero T] in
theorem VISim.read {a : VArrays T} {cs : List VCur} {s : VIWorld T} {base : Nat → Nat → Nat} (S : VISim a cs s base) (i : Nat) :
    (s.w.vars i).WF s.w.mem ∧ (s.w.vars i).read s.w.mem = a.seq i := by
  rw [S.vars i]
  have h1 := S.fits i
  refine ⟨⟨h1, S.inside i _ (Nat.le_refl _)⟩, ?_⟩
  simp only [VArrays.cap] at h1
  refine List.ext_getElem (by simp [VArrays.seq]; omega) (fun k hk1 hk2 => ?_)
  simp only [Sl.read_length] at hk1
  simp only [Sl.read, List.getElem_map, List.getElem_range]
  have := S.cells i _ (Nat.le_refl _) k (by simp only [VArrays.now] at h1; omega)
  simp only [VArrays.seq, VArrays.now, List.getElem_take]
  exact this

theorem VISim.stay {a : VArrays T} {cs : List VCur} {s : VIWorld T} {base : Nat → Nat → Nat} (S : VISim a cs s base) (i : Nat) {m' : Mem T} {v' : Sl}
    {l : List T} (st : VStay s.w.mem (s.w.vars i) m' v' l) :
    VISim { a.put i (a.gen i) (rewritten (a.now i) (a.len i) l) with len := fun j => if j = i then l.length else a.len j } cs
      { w := { mem := m', vars := fun j => if j = i then v' else s.w.vars j }, its := s.its } base := by
  have hv := S.vars i
  have hf := S.fits i
  have hl := st.fits
  have hc := st.cells
  rw [hv] at hl hc
  simp only at hl hc
  have hrl := rewritten_length (a.now i) (a.len i) l hf hl
  have hin := S.inside i _ (Nat.le_refl _)
  have := S.put i (a.gen i) (Nat.le_refl _) (rewritten (a.now i) (a.len i) l) hrl m' st.top ?_ ?_ (fun j => if j = i then l.length else a.len j) ?_
  · have hvars : (fun j => if j = i then v' else s.w.vars j) =
        fun j => ({ off := base j (a.gen j), len := if j = i then l.length else a.len j, cap := a.cap j } : Sl) := by
      funext j
      by_cases hj : j = i
      · subst hj
        simp only [if_pos]
        rw [st.eq, hv]
      · simp only [if_neg hj]
        exact S.vars j
    rw [hvars]
    exact this
  · intro k hk
    rw [hrl] at hk
    simp only [VArrays.now] at hk
    rw [hc _ (by omega)]
    by_cases hk2 : k < (l ++ List.replicate (a.len i - l.length) (GoZero.zero : T)).length
    · rw [Mem.write_in _ _ _ _ hk2]
      simp only [rewritten, padded]
      rw [List.getElem_append_left hk2]
    · rw [Mem.write_out _ _ _ _ (.inr (by omega))]
      simp only [rewritten, padded]
      rw [List.getElem_append_right (by omega), List.getElem_drop, S.cells i _ (Nat.le_refl _) k hk]
      simp only [VArrays.now]
      congr 1
      simp at hk2 ⊢
      omega
  · intro k hk hd
    rw [hc k hk]
    refine Mem.write_out _ _ _ _ ?_
    rw [hrl] at hd
    by_cases hlo : k < base i (a.gen i)
    · exact .inl hlo
    · right
      by_cases hhi : base i (a.gen i) + (a.now i).length ≤ k
      · simp only [VArrays.cap] at hl hf
        simp
        omega
      · have := hd (k - base i (a.gen i)) (by omega)
        omega
  · intro j
    by_cases hj : j = i
    · subst hj
      simpa using hl
    · simp only [if_neg hj]
      exact S.fits j

theorem VISim.move {a : VArrays T} {cs : List VCur} {s : VIWorld T} {base : Nat → Nat → Nat} (S : VISim a cs s base) (i : Nat) {m' : Mem T} {v' : Sl}
    {l : List T} {c : Nat} (st : VMove s.w.mem m' v' l c) :
    VISim { a.put i (a.gen i + 1) (padded c l) with gen := fun j => if j = i then a.gen i + 1 else a.gen j, len := fun j => if j = i then l.length else a.len j } cs
      { w := { mem := m', vars := fun j => if j = i then v' else s.w.vars j }, its := s.its }
      (fun j h => if j = i ∧ h = a.gen i + 1 then v'.off else base j h) := by
  have hpl : (padded c l).length = c := by
    have := st.fits
    simp [padded]; omega
  have hnew : ∀ j h, h ≤ (if j = i then a.gen i + 1 else a.gen j) → ¬ (j = i ∧ h = a.gen i + 1) → h ≤ a.gen j := by
    intro j h hh hn
    by_cases hj : j = i
    · subst hj; simp at hh hn; omega
    · simpa [hj] using hh
  have hcell : ∀ k (h : k < c), m'.cell (v'.off + k) = (padded c l)[k]'(by omega) := by
    intro k hk
    have := st.all
    have h1 : (Sl.read m' { v' with len := c })[k]? = (padded c l)[k]? := by rw [this]; rfl
    rw [List.getElem?_eq_getElem (by simpa using hk), List.getElem?_eq_getElem (by omega), Option.some.injEq] at h1
    rw [← h1]
    simp [Sl.read]
  refine ⟨?_, ?_, ?_, ?_, ?_, ?_, ?_⟩
  · intro j h hh
    by_cases hn : j = i ∧ h = a.gen i + 1
    · obtain ⟨rfl, rfl⟩ := hn
      simp only [VArrays.put_same, and_self, if_pos, hpl]
      exact st.inside
    · simp only [VArrays.put_other _ _ _ _ _ _ hn, if_neg hn]
      exact Nat.le_trans (S.inside j h (hnew j h hh hn)) st.top
  · intro j h hh k hk
    by_cases hn : j = i ∧ h = a.gen i + 1
    · obtain ⟨rfl, rfl⟩ := hn
      simp only [VArrays.put_same, and_self, if_pos, hpl] at hk ⊢
      exact hcell k hk
    · simp only [VArrays.put_other _ _ _ _ _ _ hn, if_neg hn] at hk ⊢
      have := S.inside j h (hnew j h hh hn)
      rw [st.keep _ (by omega)]
      exact S.cells j h (hnew j h hh hn) k hk
  · have key : ∀ j h, h ≤ a.gen j → ∀ k, k < (a.arr j h).length → ∀ d, d < c → base j h + k ≠ v'.off + d := by
      intro j h hh k hk d hd
      have := S.inside j h hh
      rcases st.place with hp | hp
      · omega
      · omega
    intro j h j' h' hh hh' hne k hk d hd
    by_cases hn : j = i ∧ h = a.gen i + 1
    · by_cases hn' : j' = i ∧ h' = a.gen i + 1
      · exact absurd ⟨hn.1.trans hn'.1.symm, hn.2.trans hn'.2.symm⟩ hne
      · simp only [VArrays.put_other _ _ _ _ _ _ hn', if_neg hn'] at hd ⊢
        obtain ⟨rfl, rfl⟩ := hn
        simp only [VArrays.put_same, and_self, if_pos, hpl] at hk ⊢
        exact (key j' h' (hnew j' h' hh' hn') d hd k hk).symm
    · simp only [VArrays.put_other _ _ _ _ _ _ hn, if_neg hn] at hk ⊢
      by_cases hn' : j' = i ∧ h' = a.gen i + 1
      · obtain ⟨rfl, rfl⟩ := hn'
        simp only [VArrays.put_same, and_self, if_pos, hpl] at hd ⊢
        exact key j h (hnew j h hh hn) k hk d hd
      · simp only [VArrays.put_other _ _ _ _ _ _ hn', if_neg hn'] at hd ⊢
        exact S.apart j h j' h' (hnew j h hh hn) (hnew j' h' hh' hn') hne k hk d hd
  · intro j
    by_cases hj : j = i
    · subst hj
      simp only [if_pos, VArrays.cap, VArrays.now, VArrays.put_same, hpl, and_self]
      rw [← st.len, ← st.cap]
    · have hn : ¬ (j = i ∧ a.gen j = a.gen i + 1) := fun h => hj h.1
      simp only [if_neg hj, VArrays.cap, VArrays.now, VArrays.put_other _ _ _ _ _ _ hn, if_neg hn]
      exact S.vars j
  · intro j
    by_cases hj : j = i
    · subst hj
      simp only [if_pos, VArrays.cap, VArrays.now, VArrays.put_same, hpl]
      exact st.fits
    · have hn : ¬ (j = i ∧ a.gen j = a.gen i + 1) := fun h => hj h.1
      simp only [if_neg hj, VArrays.cap, VArrays.now, VArrays.put_other _ _ _ _ _ _ hn]
      exact S.fits j
  · simp only
    rw [S.its]
    refine List.map_congr_left (fun cu hcu => ?_)
    have := (S.curs cu hcu).1
    have hn : ¬ (cu.i = i ∧ cu.g = a.gen i + 1) := fun h => by rw [h.1, h.2] at this; omega
    simp only [VCur.iter, VArrays.put_other _ _ _ _ _ _ hn, if_neg hn]
  · intro cu hcu
    obtain ⟨h1, h2⟩ := S.curs cu hcu
    have hn : ¬ (cu.i = i ∧ cu.g = a.gen i + 1) := fun h => by rw [h.1, h.2] at h1; omega
    simp only [VArrays.put_other _ _ _ _ _ _ hn]
    refine ⟨?_, h2⟩
    by_cases hj : cu.i = i
    · simp only [if_pos hj]; rw [hj] at h1; omega
    · simp only [if_neg hj]; exact h1

/-! ## Histories -/

theorem VISim.exec (grow : Nat → Nat → Nat) {a : VArrays T} {cs : List VCur} {s : VIWorld T} {base : Nat → Nat → Nat} (S : VISim a cs s base)
    (op : VIOp T) (hv : op.Valid) :
    ∃ base', (s.exec grow op).1 = (a.exec grow cs op).1 ∧ VISim (a.exec grow cs op).2.1 (a.exec grow cs op).2.2 (s.exec grow op).2 base' := by
  have hget : ∀ k : Nat, s.its[k]? = (cs[k]?).map (VCur.iter a base) := by intro k; rw [S.its]; simp
  cases op with
  | vec i op =>
    obtain ⟨hw, hr⟩ := S.read i
    obtain ⟨m', v', e, hm, hst⟩ := Vec.exec_exact grow op hv hw hr
    have hcap : (s.w.vars i).cap = a.cap i := by rw [S.vars i]
    rw [hcap] at hm hst
    simp only [VIWorld.exec, VArrays.exec, VArrays.step, e]
    cases hmv : op.moves (a.cap i) (a.seq i)
    · simp only [Bool.false_eq_true, if_false]
      exact ⟨base, trivial, S.stay i (hst hmv)⟩
    · simp only [if_true]
      exact ⟨_, trivial, S.move i (hm hmv)⟩
  | cap i =>
    refine ⟨base, ?_, S⟩
    simp [VIWorld.exec, VArrays.exec, VS.observe, Vec.cap, GoM.bind_def, GoM.pure_apply, S.vars i]
  | iterate i =>
    simp only [VIWorld.exec, VIWorld.open, Vec.iterate, GoM.bind_def, VS.recv_apply, GoM.pure_apply, VArrays.exec]
    refine ⟨base, trivial, S.inside, S.cells, S.apart, S.vars, S.fits, ?_, ?_⟩
    · simp [S.its, VCur.iter, S.vars i, VArrays.cap, VArrays.now]
    · intro c hc
      rcases List.mem_append.mp hc with hc | hc
      · exact S.curs c hc
      · cases List.mem_singleton.mp hc
        exact ⟨Nat.le_refl _, by simpa [VArrays.cap, VArrays.now] using S.fits i⟩
  | iterateRange i lo hi =>
    simp only [VIWorld.exec, VIWorld.open, Vec.iterateRange, GoM.bind_def, VS.recv_apply, VArrays.exec]
    have hcap : (s.w.vars i).cap = a.cap i := by rw [S.vars i]
    by_cases hc : 0 ≤ lo ∧ lo ≤ hi ∧ hi ≤ a.cap i
    · rw [if_pos hc]
      obtain ⟨p, rfl⟩ : ∃ n : Nat, lo = n := ⟨lo.toNat, by omega⟩
      obtain ⟨q, rfl⟩ : ∃ n : Nat, hi = n := ⟨hi.toNat, by omega⟩
      have e := Sl.slice_ok (s.w.vars i) s.w.mem p q (by omega) (by omega)
      simp only [VS.on_ok e, GoM.pure_apply]
      refine ⟨base, trivial, S.inside, S.cells, S.apart, S.vars, S.fits, ?_, ?_⟩
      · simp [S.its, VCur.iter, S.vars i, VArrays.cap, VArrays.now]
      · intro c hc'
        rcases List.mem_append.mp hc' with hc' | hc'
        · exact S.curs c hc'
        · cases List.mem_singleton.mp hc'
          refine ⟨Nat.le_refl _, ?_⟩
          have := hc.2.2
          simp only [VArrays.cap, VArrays.now] at this
          simp only [Int.toNat_natCast]
          omega
    · rw [if_neg hc]
      have e := Sl.slice_panic (s.w.vars i) s.w.mem lo hi (by omega)
      simp only [VS.on_panic e]
      exact ⟨base, trivial, S⟩
  | isNotEnd k =>
    simp only [VIWorld.exec, VArrays.exec, hget]
    cases hk : cs[k]? with
    | none => exact ⟨base, by simp, by simpa using S⟩
    | some c =>
      refine ⟨base, ?_, by simpa using S⟩
      simp [VIter.isNotEnd, VCur.iter]
  | moveToNext k =>
    simp only [VIWorld.exec, VArrays.exec, hget]
    cases hk : cs[k]? with
    | none => exact ⟨base, by simp, by simpa using S⟩
    | some c =>
      refine ⟨base, by simp, ?_⟩
      simp only [Option.map_some]
      refine ⟨S.inside, S.cells, S.apart, S.vars, S.fits, ?_, ?_⟩
      · simp only [S.its, List.map_set]
        congr 1
      · intro c' hc'
        rcases List.mem_or_eq_of_mem_set hc' with h | h
        · exact S.curs c' h
        · subst h
          exact S.curs c (List.mem_of_getElem? hk)
  | value k =>
    simp only [VIWorld.exec, VArrays.exec, hget]
    cases hk : cs[k]? with
    | none => exact ⟨base, by simp, by simpa using S⟩
    | some c =>
      obtain ⟨hg, hn⟩ := S.curs c (List.mem_of_getElem? hk)
      simp only [Option.map_some, VIWorld.observe, VIter.value]
      by_cases hp : c.pos < c.n
      · have e := Sl.get_ok (c.iter a base).v s.w.mem c.pos (by simpa [VCur.iter] using hp)
        have hi : (c.iter a base).i = (c.pos : Int) := rfl
        rw [hi, e, if_pos hp, List.getElem?_eq_getElem (by omega)]
        refine ⟨base, ?_, S⟩
        simp only [DObs.val.injEq]
        rw [← S.cells c.i c.g hg (c.lo + c.pos) (by omega)]
        simp [Sl.read, VCur.iter, Nat.add_assoc]
      · have e := Sl.get_panic (c.iter a base).v s.w.mem c.pos (by simp [VCur.iter]; omega)
        have hi : (c.iter a base).i = (c.pos : Int) := rfl
        rw [hi, e, if_neg hp]
        exact ⟨base, rfl, S⟩
  | store k x =>
    simp only [VIWorld.exec, VArrays.exec, hget]
    cases hk : cs[k]? with
    | none => exact ⟨base, by simp, by simpa using S⟩
    | some c =>
      obtain ⟨hg, hn⟩ := S.curs c (List.mem_of_getElem? hk)
      simp only [Option.map_some, VIWorld.observe, VIter.store]
      have hi : (c.iter a base).i = (c.pos : Int) := rfl
      by_cases hp : c.pos < c.n
      · have e : (c.iter a base).v.put (c.pos : Int) x s.w.mem = .ok () (s.w.mem.write ((c.iter a base).v.off + c.pos) [x]) := by
          unfold Sl.put
          rw [if_pos ⟨by omega, by simpa [VCur.iter] using hp⟩]
          simp
        rw [hi, e, if_pos hp]
        refine ⟨base, rfl, ?_⟩
        have hin := S.inside c.i c.g hg
        have := S.put c.i c.g hg ((a.arr c.i c.g).set (c.lo + c.pos) x) (by simp) (s.w.mem.write ((c.iter a base).v.off + c.pos) [x]) (Nat.le_refl _) ?_ ?_
          a.len S.fits
        · have hvars : s.w.vars = fun j => ({ off := base j (a.gen j), len := a.len j, cap := a.cap j } : Sl) := funext S.vars
          simp only [← hvars] at this
          exact this
        · intro q hq
          simp only [List.length_set] at hq
          simp only [VCur.iter]
          by_cases he : q = c.lo + c.pos
          · subst he
            have := Mem.write_in s.w.mem (base c.i c.g + c.lo + c.pos) [x] 0 (by simp)
            simp only [Nat.add_zero] at this
            rw [← Nat.add_assoc, this]
            simp
          · rw [Mem.write_out _ _ _ _ (by simp; omega), List.getElem_set_ne (Ne.symm he)]
            exact S.cells c.i c.g hg q hq
        · intro q hq hd
          have := hd (c.lo + c.pos) (by simp; omega)
          refine Mem.write_out _ _ _ _ ?_
          simp [VCur.iter]
          omega
      · have e := Sl.put_panic (c.iter a base).v s.w.mem c.pos x (by simp [VCur.iter]; omega)
        rw [hi, e, if_neg hp]
        exact ⟨base, rfl, S⟩

theorem VISim.run (grow : Nat → Nat → Nat) (h : List (VIOp T)) : ∀ {a : VArrays T} {cs : List VCur} {s : VIWorld T} {base : Nat → Nat → Nat},
    VISim a cs s base → (∀ op ∈ h, op.Valid) →
    ∃ base', (s.run grow h).1 = (a.run grow cs h).1 ∧ VISim (a.run grow cs h).2.1 (a.run grow cs h).2.2 (s.run grow h).2 base' := by
  induction h with
  | nil => intro a cs s base S _; exact ⟨base, rfl, S⟩
  | cons op h ih =>
    intro a cs s base S hv
    obtain ⟨b1, e1, S1⟩ := S.exec grow op (hv op (by simp))
    obtain ⟨b2, e2, S2⟩ := ih S1 (fun o ho => hv o (by simp [ho]))
    exact ⟨b2, by simp [VIWorld.run, VArrays.run, e1, e2], S2⟩

omit [GoZero T] in
theorem VISim.init (m : Mem T) : VISim VArrays.init [] (VIWorld.init m) (fun _ _ => 0) := by
  refine ⟨by simp [VArrays.init], ?_, ?_, fun _ => rfl, fun _ => Nat.le_refl _, rfl, by simp⟩
  · intro i g _ k hk; simp [VArrays.init] at hk
  · intro i g j h _ _ _ k hk; simp [VArrays.init] at hk

theorem VArrays.run_append (grow : Nat → Nat → Nat) (h h' : List (VIOp T)) : ∀ (a : VArrays T) (cs : List VCur),
    a.run grow cs (h ++ h') = ((a.run grow cs h).1 ++ ((a.run grow cs h).2.1.run grow (a.run grow cs h).2.2 h').1,
      ((a.run grow cs h).2.1.run grow (a.run grow cs h).2.2 h').2) := by
  induction h with
  | nil => intro a cs; rfl
  | cons op h ih => intro a cs; simp [VArrays.run, ih]

/-! ## What an iterator shows -/

/-- What the arrays keep: lengths fit and iterators are inside their arrays. -/
structure VArrays.OK (a : VArrays T) (cs : List VCur) : Prop where
  fits : ∀ i, a.len i ≤ a.cap i
  curs : ∀ c ∈ cs, c.g ≤ a.gen c.i ∧ c.lo + c.n ≤ (a.arr c.i c.g).length

/-- A history of valid operations. -/
theorem VArrays.reach (grow : Nat → Nat → Nat) (h : List (VIOp T)) (hv : ∀ op ∈ h, op.Valid) (m : Mem T) :
    VArrays.OK (VArrays.run grow VArrays.init [] h).2.1 (VArrays.run grow VArrays.init [] h).2.2
      ∧ ∀ h', (∀ op ∈ h', op.Valid) → ((VIWorld.run grow (VIWorld.init m) h).2.run grow h').1 =
        ((VArrays.run grow VArrays.init [] h).2.1.run grow (VArrays.run grow VArrays.init [] h).2.2 h').1 := by
  obtain ⟨b, _, S⟩ := VISim.run grow h (VISim.init m) hv
  exact ⟨⟨S.fits, S.curs⟩, fun h' hv' => (VISim.run grow h' S hv').choose_spec.1⟩

theorem VArrays.run_listing (grow : Nat → Nat → Nat) (k : Nat) (xs : List T) : ∀ (a : VArrays T) (cs : List VCur) (c : VCur),
    cs[k]? = some c → c.lo + c.n ≤ (a.arr c.i c.g).length → c.pos ≤ c.n → a.rest c = xs →
    (a.run grow cs (listing k (c.n - c.pos))).1 = listed xs := by
  induction xs with
  | nil =>
    intro a cs c hk hl hp hr
    have h0 : c.n - c.pos = 0 := by
      have := congrArg List.length hr
      simp [VArrays.rest] at this
      omega
    rw [h0]
    simp [listing, listed, VArrays.run, VArrays.exec, hk]
    omega
  | cons x xs ih =>
    intro a cs c hk hl hp hr
    have hlen := congrArg List.length hr
    simp [VArrays.rest] at hlen
    have hlt : c.pos < c.n := by omega
    obtain ⟨d, hd⟩ : ∃ d, c.n - c.pos = d + 1 := ⟨c.n - c.pos - 1, by omega⟩
    have hx : (a.arr c.i c.g)[c.lo + c.pos]? = some x := by
      have := congrArg List.head? hr
      simp [VArrays.rest, List.head?_take, List.head?_drop] at this
      exact this.2
    have hks : k < cs.length := (List.getElem?_eq_some_iff.mp hk).1
    have := ih a (cs.set k { c with pos := c.pos + 1 }) { c with pos := c.pos + 1 } (by simp [hks]) hl hlt (by
      have h2 := congrArg List.tail hr
      simp only [VArrays.rest, List.tail_cons] at h2 ⊢
      rw [← h2, hd, show c.n - (c.pos + 1) = d by omega, ← List.drop_one, List.drop_take, List.drop_drop]
      rfl)
    simp only [show c.n - (c.pos + 1) = d by omega] at this
    rw [hd]
    simp [listing, listed, VArrays.run, VArrays.exec, hk, hlt, hx, this]

/-- An operation on one vector leaves all arrays alone but the one that the vector has or gets. -/
theorem VArrays.step_arr (grow : Nat → Nat → Nat) (a : VArrays T) (i : Nat) (op : VOp T) (j g : Nat) (hg : g ≤ a.gen j) (hn : ¬ (j = i ∧ g = a.gen i)) :
    (a.step grow i op).2.arr j g = a.arr j g := by
  simp only [VArrays.step]
  split
  · refine VArrays.put_other _ _ _ _ _ _ (fun h => ?_)
    rw [h.1, h.2] at hg
    omega
  · exact VArrays.put_other _ _ _ _ _ _ hn

theorem VArrays.step_gen (grow : Nat → Nat → Nat) (a : VArrays T) (i : Nat) (op : VOp T) (j : Nat) :
    (a.step grow i op).2.gen j = if j = i ∧ op.moves (a.cap i) (a.seq i) = true then a.gen j + 1 else a.gen j := by
  simp only [VArrays.step]
  by_cases hm : op.moves (a.cap i) (a.seq i) = true
  · rw [if_pos hm]
    by_cases hj : j = i
    · subst hj; simp [hm]
    · simp [hj]
  · rw [if_neg hm, if_neg (fun h => hm h.2)]
    rfl

theorem VArrays.step_cur (grow : Nat → Nat → Nat) (a : VArrays T) (i : Nat) (op : VOp T) :
    (a.step grow i op).2.arr i (a.gen i) =
      if op.moves (a.cap i) (a.seq i) = true then a.now i else rewritten (a.now i) (a.len i) (VSeq.step (a.seq i) op).2 := by
  simp only [VArrays.step]
  split
  · exact VArrays.put_other _ _ _ _ _ _ (by omega)
  · exact VArrays.put_same _ _ _ _

omit [GoZero T] in
theorem VArrays.OK.seq_length {a : VArrays T} {cs : List VCur} (o : a.OK cs) (i : Nat) : (a.seq i).length = a.len i := by
  have := o.fits i
  simp only [VArrays.cap] at this
  simp [VArrays.seq]; omega

/-- Operations that keep the elements and may only add new ones at the end. -/
theorem VOp.grows_step (s : List T) (op : VOp T) (h : op.grows = true) : ∃ t, (VSeq.step s op).2 = s ++ t := by
  cases op <;> simp [VOp.grows] at h <;> simp only [VSeq.step]
  case append xs => exact ⟨xs, rfl⟩
  case pushBack x => exact ⟨[x], rfl⟩
  all_goals first
    | exact ⟨[], (List.append_nil _).symm⟩
    | (refine ⟨[], ?_⟩; rw [List.append_nil]; split <;> rfl)

omit [GoZero T] in
theorem VISim.ok {a : VArrays T} {cs : List VCur} {s : VIWorld T} {base : Nat → Nat → Nat} (S : VISim a cs s base) : a.OK cs := ⟨S.fits, S.curs⟩

/-- Steps that do not touch iterator `k` leave its cursor. -/
theorem VArrays.exec_cur (grow : Nat → Nat → Nat) (a : VArrays T) (cs : List VCur) (k : Nat) (c : VCur) (op : VIOp T) (hk : cs[k]? = some c)
    (hl : op.Leaves k) : (a.exec grow cs op).2.2[k]? = some c := by
  have hks : k < cs.length := (List.getElem?_eq_some_iff.mp hk).1
  have happ : ∀ d : VCur, (cs ++ [d])[k]? = some c := by
    intro d
    rw [List.getElem?_append_left hks, hk]
  cases op with
  | vec i op => exact hk
  | cap i => exact hk
  | iterate i => exact happ _
  | iterateRange i lo hi => simp only [VArrays.exec]; split; exact happ _; exact hk
  | isNotEnd k' => simp only [VArrays.exec]; split <;> exact hk
  | moveToNext k' =>
    simp only [VArrays.exec]
    split
    · exact hk
    · rw [List.getElem?_set_ne hl]; exact hk
  | value k' =>
    simp only [VArrays.exec]
    split
    · exact hk
    · split
      · split <;> exact hk
      · exact hk
  | store k' x => exact absurd hl (by simp [VIOp.Leaves])

/-- Steps that change neither vectors nor arrays. -/
theorem VArrays.exec_same (grow : Nat → Nat → Nat) (a : VArrays T) (cs : List VCur) (k : Nat) (op : VIOp T) (hl : op.Leaves k)
    (hn : ∀ i o, op ≠ .vec i o) : (a.exec grow cs op).2.1 = a := by
  cases op with
  | vec i op => exact absurd rfl (hn i op)
  | cap i => rfl
  | iterate i => rfl
  | iterateRange i lo hi => simp only [VArrays.exec]; split <;> rfl
  | isNotEnd k' => simp only [VArrays.exec]; split <;> rfl
  | moveToNext k' => simp only [VArrays.exec]; split <;> rfl
  | value k' =>
    simp only [VArrays.exec]
    split
    · rfl
    · split
      · split <;> rfl
      · rfl
  | store k' x => exact absurd hl (by simp [VIOp.Leaves])

/-- The vector has another array than the iterator. -/
theorem VArrays.run_left (grow : Nat → Nat → Nat) (k : Nat) (c : VCur) (mid : List (VIOp T)) : ∀ (a : VArrays T) (cs : List VCur),
    (∀ op ∈ mid, op.Leaves k) → cs[k]? = some c → c.g < a.gen c.i →
    (a.run grow cs mid).2.2[k]? = some c ∧ (a.run grow cs mid).2.1.arr c.i c.g = a.arr c.i c.g ∧ c.g < (a.run grow cs mid).2.1.gen c.i := by
  induction mid with
  | nil => intro a cs _ hk hg; exact ⟨hk, rfl, hg⟩
  | cons op mid ih =>
    intro a cs hl hk hg
    have h1 := VArrays.exec_cur grow a cs k c op hk (hl op (by simp))
    have h2 : (a.exec grow cs op).2.1.arr c.i c.g = a.arr c.i c.g ∧ c.g < (a.exec grow cs op).2.1.gen c.i := by
      by_cases hv : ∃ i o, op = .vec i o
      · obtain ⟨i, o, rfl⟩ := hv
        simp only [VArrays.exec]
        refine ⟨VArrays.step_arr grow a i o c.i c.g (by omega) (fun h => by rw [← h.1] at h; omega), ?_⟩
        rw [VArrays.step_gen]
        split <;> omega
      · rw [VArrays.exec_same grow a cs k op (hl op (by simp)) (fun i o h => hv ⟨i, o, h⟩)]
        exact ⟨rfl, hg⟩
    obtain ⟨q1, q2, q3⟩ := ih (a.exec grow cs op).2.1 (a.exec grow cs op).2.2 (fun o ho => hl o (by simp [ho])) h1 h2.2
    exact ⟨q1, by rw [← h2.1]; exact q2, q3⟩

omit [GoZero T] in
theorem VIOp.Keeps.leaves {i k : Nat} {op : VIOp T} (h : op.Keeps i k) : op.Leaves k := by
  cases op <;> simp_all [VIOp.Keeps, VIOp.Leaves]

/-- The vector of the iterator only grows. -/
theorem VISim.run_keep (grow : Nat → Nat → Nat) (k : Nat) (c : VCur) (mid : List (VIOp T)) : ∀ {a : VArrays T} {cs : List VCur} {s : VIWorld T}
    {base : Nat → Nat → Nat}, VISim a cs s base → (∀ op ∈ mid, op.Valid) → (∀ op ∈ mid, op.Keeps c.i k) → cs[k]? = some c → c.g ≤ a.gen c.i →
    (c.g = a.gen c.i → c.n ≤ a.len c.i) →
    (a.run grow cs mid).2.2[k]? = some c ∧ ((a.run grow cs mid).2.1.arr c.i c.g).take c.n = (a.arr c.i c.g).take c.n := by
  induction mid with
  | nil => intro a cs s base S _ _ hk _ _; exact ⟨hk, rfl⟩
  | cons op mid ih =>
    intro a cs s base S hv hl hk hg hn
    have hkeep := hl op (by simp)
    have h1 := VArrays.exec_cur grow a cs k c op hk hkeep.leaves
    obtain ⟨b, _, S1⟩ := S.exec grow op (hv op (by simp))
    have h2 : ((a.exec grow cs op).2.1.arr c.i c.g).take c.n = (a.arr c.i c.g).take c.n ∧ c.g ≤ (a.exec grow cs op).2.1.gen c.i
        ∧ (c.g = (a.exec grow cs op).2.1.gen c.i → c.n ≤ (a.exec grow cs op).2.1.len c.i) := by
      by_cases hvec : ∃ i o, op = .vec i o
      · obtain ⟨i, o, rfl⟩ := hvec
        simp only [VArrays.exec]
        have hgen := VArrays.step_gen grow a i o c.i
        by_cases hi : c.i = i
        · have hgr : o.grows = true := by
            rcases hkeep with h | h
            · exact absurd hi.symm h
            · exact h
          obtain ⟨t, ht⟩ := VOp.grows_step (a.seq i) o hgr
          have hlen : (a.step grow i o).2.len c.i = (a.seq i).length + t.length := by
            simp [VArrays.step, hi, ht]
          have hsl := S.ok.seq_length i
          have hfit := S.fits i
          by_cases hgc : c.g = a.gen c.i
          · refine ⟨?_, by rw [hgen]; split <;> omega, fun _ => by rw [hlen, hsl, ← hi]; have := hn hgc; omega⟩
            have hcur := VArrays.step_cur grow a i o
            rw [hgc, hi, hcur]
            split
            · rfl
            · have hn' := hn hgc
              rw [hi] at hn'
              rw [ht]
              simp only [rewritten, padded, List.append_assoc]
              rw [List.take_append_of_le_length (by omega)]
              simp only [VArrays.seq, VArrays.now, List.take_take]
              congr 1
              omega
          · have hlt : c.g < a.gen c.i := by omega
            refine ⟨by rw [VArrays.step_arr grow a i o c.i c.g hg (fun h => by rw [← h.1] at h; omega)], by rw [hgen]; split <;> omega, fun h => ?_⟩
            rw [hgen] at h
            split at h <;> omega
        · have hlen : (a.step grow i o).2.len c.i = a.len c.i := by simp [VArrays.step, hi]
          have hgen' : (a.step grow i o).2.gen c.i = a.gen c.i := by rw [hgen, if_neg (fun h => hi h.1)]
          rw [VArrays.step_arr grow a i o c.i c.g hg (fun h => hi h.1), hgen', hlen]
          exact ⟨rfl, hg, hn⟩
      · rw [VArrays.exec_same grow a cs k op hkeep.leaves (fun i o h => hvec ⟨i, o, h⟩)]
        exact ⟨rfl, hg, hn⟩
    obtain ⟨q1, q2⟩ := ih S1 (fun o ho => hv o (by simp [ho])) (fun o ho => hl o (by simp [ho])) h1 h2.2.1 h2.2.2
    exact ⟨q1, by rw [← h2.1]; exact q2⟩

theorem VIWorld.run_append (grow : Nat → Nat → Nat) (h h' : List (VIOp T)) : ∀ s : VIWorld T,
    s.run grow (h ++ h') = ((s.run grow h).1 ++ ((s.run grow h).2.run grow h').1, ((s.run grow h).2.run grow h').2) := by
  induction h with
  | nil => intro s; rfl
  | cons op h ih => intro s; simp [VIWorld.run, ih]

theorem VIWorld.run_length (grow : Nat → Nat → Nat) (h : List (VIOp T)) : ∀ s : VIWorld T, (s.run grow h).1.length = h.length := by
  induction h with
  | nil => intro s; rfl
  | cons op h ih => intro s; simp [VIWorld.run, ih]

omit [GoZero T] in
theorem listing_valid (k n : Nat) : ∀ op ∈ (listing k n : List (VIOp T)), op.Valid := by
  induction n with
  | zero => intro op h; simp [listing] at h; subst h; trivial
  | succ n ih =>
    intro op h
    simp only [listing, List.mem_cons] at h
    rcases h with rfl | rfl | rfl | h
    · trivial
    · trivial
    · trivial
    · exact ih op h

/-- The arrays behind a state that a history has reached. -/
theorem VIWorld.after_sim (grow : Nat → Nat → Nat) (m : Mem T) (h : List (VIOp T)) (hv : ∀ op ∈ h, op.Valid) :
    ∃ (a : VArrays T) (cs : List VCur) (base : Nat → Nat → Nat), VISim a cs (VIWorld.after grow m h) base := by
  obtain ⟨b, _, S⟩ := VISim.run grow h (VISim.init m) hv
  exact ⟨_, _, b, S⟩

theorem VISim.shows {grow : Nat → Nat → Nat} {a : VArrays T} {cs : List VCur} {w : VIWorld T} {base : Nat → Nat → Nat} (S : VISim a cs w base)
    {i : Nat} {s : List T} {c : Nat} (h : w.Shows grow i s c) : a.seq i = s ∧ a.cap i = c ∧ a.len i = s.length := by
  obtain ⟨_, e1, _⟩ := S.exec grow (.vec i .values) trivial
  obtain ⟨_, e2, _⟩ := S.exec grow (.cap i) trivial
  rw [h.1] at e1
  rw [h.2] at e2
  simp only [VArrays.exec, VArrays.step, VSeq.step, DObs.list.injEq, DObs.num.injEq] at e1 e2
  exact ⟨e1.symm, by omega, by rw [e1]; exact (S.ok.seq_length i).symm⟩

omit [GoZero T] in
theorem VISim.count {a : VArrays T} {cs : List VCur} {w : VIWorld T} {base : Nat → Nat → Nat} (S : VISim a cs w base) : w.its.length = cs.length := by
  rw [S.its]; simp

end Stl4go
