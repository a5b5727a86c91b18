import Verif.Proofs.TransformCopy
/-! # Lemmas about `TransformTo`, `Fill`, `FillPattern`, `Reverse`, `Shuffle` -/
namespace Stl4go
variable {T R σ : Type}

/-! ## TransformTo -/

theorem transformToLoop_into [GoZero R] (grow : Nat → Nat → Nat) (rd : Nat → GoM (Mem R) T) (op : σ → T → σ × R) (xs : List T) (t : σ) (b : Sl) (m : Mem R)
    (hb : b.WF m) (Src : Nat → Mem R → Prop)
    (hrd : ∀ (i : Nat) (h : i < xs.length) (m' : Mem R), Src i m' → rd i m' = .ok xs[i] m')
    (hstep : ∀ (i : Nat) (m1 m2 : Mem R), i < xs.length → Src i m1 → m.top ≤ m1.top →
      (∀ k, k < m.top → (i < b.cap → k ≠ b.off + i) → m2.cell k = m1.cell k) → Src (i + 1) m2) (h0 : Src 0 m) :
    ∃ r m', (do
        let b ← b.slice 0 0
        transformToLoop grow rd op xs.length 0 t b : GoM (Mem R) (σ × Sl)) m = .ok ((mapS op t xs).1, r) m' ∧ Into m b m' r (mapS op t xs).2 := by
  have hs := Sl.slice_zero b m 0 (Nat.zero_le _)
  simp only [Int.natCast_zero] at hs
  have e0 : Sl.read m { b with len := 0 } = [] := by simp [Sl.read]
  obtain ⟨r, m', e, hr, hw, ht, hp, hf, hin⟩ := transformToLoop_eq grow rd op xs xs m b Src hrd hstep
    [] t { b with len := 0 } m rfl rfl ⟨Nat.zero_le _, hb.2⟩ h0 (Nat.le_refl _) (.inl ⟨rfl, rfl⟩) (fun _ _ _ => rfl) hb.2
  have hlen : r.len = xs.length := by
    have := congrArg List.length hr
    simpa [e0, mapS_length] using this
  refine ⟨r, m', ?_, ⟨by rw [hr, e0]; rfl, hw, ht, ?_, ?_, hf⟩⟩
  · simp only [GoM.bind_def, hs]
    simpa using e
  · intro hc
    rw [mapS_length] at hc ⊢
    obtain ⟨q1, q2⟩ := hin (by simpa using hc)
    exact ⟨by rw [q1]; simp, by rw [q2]; simp⟩
  · intro hc
    rw [mapS_length] at hc
    rcases hp with ⟨p1, p2⟩ | p
    · have := hw.1; omega
    · exact p

theorem transformTo_eq [GoZero T] (grow : Nat → Nat → Nat) (a b : Sl) (op : σ → T → σ × T) (t : σ) (m : Mem T) (ha : a.WF m) (hb : b.WF m)
    (hov : b.off ≤ a.off ∨ a.off + a.len ≤ b.off) :
    ∃ r m', transformTo grow a op t b m = .ok ((mapS op t (a.read m)).1, r) m' ∧ Into m b m' r (mapS op t (a.read m)).2 := by
  have := transformToLoop_into grow (fun i => a.get i) op (a.read m) t b m hb
    (fun i m' => ∀ k, i ≤ k → k < a.len → m'.cell (a.off + k) = m.cell (a.off + k))
    (by
      intro i hi m' hS
      have hi' : i < a.len := by simpa using hi
      rw [Sl.get_ok _ _ _ hi']
      congr 1
      rw [Sl.read_getElem, Sl.read_getElem]
      exact hS i (Nat.le_refl _) hi')
    (by
      intro i m1 m2 hi hS htop hfr k hik hk
      rw [hfr (a.off + k) (by have := ha.1; have := ha.2; omega) (by intro; omega)]
      exact hS k (by omega) hk)
    (fun _ _ _ => rfl)
  simpa [transformTo] using this

theorem transformToOther_eq [GoZero R] (grow : Nat → Nat → Nat) (xs : List T) (b : Sl) (op : σ → T → σ × R) (t : σ) (m : Mem R) (hb : b.WF m) :
    ∃ r m', transformToOther grow xs op t b m = .ok ((mapS op t xs).1, r) m' ∧ Into m b m' r (mapS op t xs).2 :=
  transformToLoop_into grow (readOther xs) op xs t b m hb (fun _ _ => True)
    (by intro i hi m' _; simp [readOther, hi]) (fun _ _ _ _ _ _ _ => trivial) trivial

theorem copyTo_into [GoZero T] (grow : Nat → Nat → Nat) (a to : Sl) (m : Mem T) (ht : to.WF m) :
    ∃ r m', copyTo grow a to m = .ok r m' ∧ Into m to m' r (a.read m) := by
  obtain ⟨r, m', e, g, hin⟩ := copyTo_eq grow a to m ht
  have hlen : r.len = a.len := by
    have := congrArg List.length g.read
    simpa using this
  refine ⟨r, m', e, g.read, g.wf, g.top, ?_, ?_, g.frame⟩
  · intro hc
    rw [Sl.read_length] at hc ⊢
    exact ⟨(hin hc).1, by rw [(hin hc).2]; rfl⟩
  · intro hc
    rw [Sl.read_length] at hc
    rcases g.place with ⟨p1, p2⟩ | p
    · have := g.wf.1; omega
    · exact p

/-! ## Fill -/

theorem wrap64_double (j : Nat) (h : j < 2 ^ 62) : wrap64 ((j : Int) * 2) = ((2 * j : Nat) : Int) := by
  unfold wrap64; omega

theorem fillLoop_eq (a : Sl) (m : Mem T) (f : Nat → T) (hcap : a.len ≤ a.cap) (hbig : a.len ≤ 2 ^ 62) (fuel : Nat) :
    ∀ (j : Nat) (xs : List T), xs.length = a.len → 0 < j → 0 < fuel → a.len < fuel + j → (∀ i, f (i + j) = f i) →
      (∀ (i : Nat) (h : i < xs.length), i < j → xs[i] = f i) →
      fillLoop a fuel (j : Int) (m.write a.off xs) = .ok () (m.write a.off ((List.range a.len).map f)) := by
  induction fuel with
  | zero =>
    intro j xs hl hj hf0
    omega
  | succ fuel ih =>
    intro j xs hl hj hf0 hf hper hxs
    unfold fillLoop
    by_cases hlt : j < a.len
    · rw [if_pos (by omega)]
      simp only [GoM.bind_def, Sl.slice_ok a _ j a.len (by omega) hcap, Sl.slice_zero a _ j (by omega), Sl.copy]
      have hrd : Sl.read (m.write a.off xs) { a with len := j } = xs.take j := by
        have := Sl.read_sub (m.write a.off xs) a 0 j a.cap (by omega)
        rw [Sl.read_write_self _ _ _ hl] at this
        simpa using this
      rw [hrd, Mem.write_sub _ _ _ _ _ (by simp; omega), wrap64_double j (by omega)]
      apply ih (2 * j)
      · simp; omega
      · omega
      · omega
      · omega
      · intro i
        rw [show i + 2 * j = i + j + j by omega, hper, hper]
      · intro i hi hij
        by_cases h1 : i < j
        · rw [List.getElem_append_left (by simp; omega), List.getElem_append_left (by simp; omega)]
          simp only [List.getElem_take]
          exact hxs i (by omega) h1
        · have hia : i < a.len := by simp at hi; omega
          obtain ⟨l, rfl⟩ : ∃ l, i = l + j := ⟨i - j, by omega⟩
          rw [hper, List.getElem_append_left (by simp; omega), List.getElem_append_right (by simp; omega)]
          simp only [List.getElem_take, List.length_take]
          have e : l + j - min j xs.length = l := by omega
          simp only [e]
          exact hxs l (by omega) (by omega)
    · rw [if_neg (by omega)]
      have : xs = (List.range a.len).map f := by
        apply List.ext_getElem (by simp [hl])
        intro i h1 h2
        rw [hxs i h1 (by omega)]
        simp
      rw [← this]; rfl

theorem fill_eq (a : Sl) (m : Mem T) (v : T) (ha : a.WF m) (hbig : a.len ≤ 2 ^ 62) :
    fill a v m = .ok () (m.write a.off (List.replicate a.len v)) := by
  unfold fill
  by_cases h0 : a.len = 0
  · rw [if_pos h0, h0]; simp [GoM.pure_apply]
  · rw [if_neg h0]
    have hp := Sl.put_ok a m 0 v (by omega)
    simp only [Int.natCast_zero] at hp
    simp only [GoM.bind_def, hp]
    have := fillLoop_eq a m (fun _ => v) ha.1 hbig (a.len + 1) 1 ((a.read m).set 0 v) (by simp) (by omega) (by omega) (by omega) (fun _ => rfl)
      (by
        intro i h hi
        obtain rfl : i = 0 := by omega
        simp)
    simp only [Int.natCast_one] at this
    rw [this]
    congr 2
    apply List.ext_getElem <;> simp

theorem fillPattern_eq (a p : Sl) (m : Mem T) (ha : a.WF m) (hbig : a.len ≤ 2 ^ 62) (hp : p.read m ≠ []) :
    fillPattern a p m = .ok () (m.write a.off (cycle (p.read m) a.len hp)) := by
  have hpl : 0 < p.len := by rw [← Sl.read_length m p]; exact List.length_pos_iff.mpr hp
  unfold fillPattern
  rw [if_neg (by omega)]
  simp only [GoM.bind_def, Sl.copy]
  have hw : m.write a.off ((p.read m).take a.len) = m.write a.off ((p.read m).take a.len ++ (a.read m).drop p.len) := by
    have h1 := Mem.write_sub m a.off (a.read m) ((p.read m).take a.len) 0 (by simp; omega)
    rw [Sl.write_read] at h1
    simp at h1
    rw [h1]
    congr 2
    rcases Nat.le_total a.len p.len with h | h
    · rw [Nat.min_eq_left h, List.drop_of_length_le (by simp), List.drop_of_length_le (by simp [h])]
    · rw [Nat.min_eq_right h]
  rw [hw]
  apply fillLoop_eq a m (fun i => (p.read m)[i % (p.read m).length]'(Nat.mod_lt _ (by simpa using hpl))) ha.1 hbig
  · simp; omega
  · exact hpl
  · omega
  · omega
  · intro i
    simp
  · intro i h hi
    have hia : i < a.len := by simp at h; omega
    rw [List.getElem_append_left (by simp; omega)]
    simp [Nat.mod_eq_of_lt hi]

/-- Past 2^62 elements the doubling in `Fill` runs over 2^63. -/
theorem fillLoop_huge (a : Sl) (hcap : a.len ≤ a.cap) (hbig : 2 ^ 62 < a.len) (d : Nat) : ∀ (k : Nat) (fuel : Nat) (m : Mem T), k + d = 62 → 64 ≤ fuel + k →
    ∃ m', fillLoop a fuel ((2 ^ k : Nat) : Int) m = .panic m' := by
  induction d with
  | zero =>
    intro k fuel m hk hf
    obtain rfl : k = 62 := by omega
    obtain ⟨fuel, rfl⟩ : ∃ g, fuel = g + 2 := ⟨fuel - 2, by omega⟩
    unfold fillLoop
    rw [if_pos (by omega)]
    simp only [GoM.bind_def, Sl.slice_ok a _ (2 ^ 62) a.len (by omega) hcap, Sl.slice_zero a _ (2 ^ 62) (by omega), Sl.copy]
    have hwr : wrap64 (((2 ^ 62 : Nat) : Int) * 2) = -(2 ^ 63) := by decide
    rw [hwr]
    unfold fillLoop
    rw [if_pos (by omega)]
    simp only [GoM.bind_def]
    rw [Sl.slice_panic _ _ _ _ (by omega)]
    exact ⟨_, rfl⟩
  | succ d ih =>
    intro k fuel m hk hf
    have h2 : 2 ^ k ≤ 2 ^ 61 := Nat.pow_le_pow_right (by omega) (by omega)
    obtain ⟨fuel, rfl⟩ : ∃ g, fuel = g + 1 := ⟨fuel - 1, by omega⟩
    unfold fillLoop
    rw [if_pos (by omega)]
    simp only [GoM.bind_def, Sl.slice_ok a _ (2 ^ k) a.len (by omega) hcap, Sl.slice_zero a _ (2 ^ k) (by omega), Sl.copy]
    rw [wrap64_double _ (by omega), show 2 * 2 ^ k = 2 ^ (k + 1) by rw [Nat.pow_succ]; omega]
    exact ih (k + 1) fuel _ (by omega) (by omega)

theorem fill_huge (a : Sl) (m : Mem T) (v : T) (ha : a.WF m) (hbig : 2 ^ 62 < a.len) : ∃ m', fill a v m = .panic m' := by
  unfold fill
  rw [if_neg (by omega)]
  have hp := Sl.put_ok a m 0 v (by omega)
  simp only [Int.natCast_zero] at hp
  simp only [GoM.bind_def, hp]
  exact fillLoop_huge a ha.1 hbig 62 0 (a.len + 1) _ rfl (by omega)

/-! ## Reverse and Shuffle -/

theorem swapAt_eq (a : Sl) (m : Mem T) (xs : List T) (hl : xs.length = a.len) (i j : Nat) (hi : i < xs.length) (hj : j < xs.length) :
    swapAt a i j (m.write a.off xs) = .ok () (m.write a.off ((xs.set i xs[j]).set j xs[i])) := by
  unfold swapAt
  simp only [GoM.bind_def, Sl.get_write a m xs hl j hj, Sl.get_write a m xs hl i hi, Sl.put_write a m xs hl i _ hi]
  rw [Sl.put_write a m _ (by simpa using hl) j _ (by simpa using hj)]

theorem swap_ends (pre mid suf : List T) (x y : T) :
    (((pre ++ x :: mid ++ y :: suf).set pre.length y).set (pre.length + mid.length + 1) x) = pre ++ y :: mid ++ x :: suf := by
  have h1 : (pre ++ x :: mid ++ y :: suf).set pre.length y = pre ++ y :: mid ++ y :: suf := by simp
  rw [h1]
  have h2 := List.set_append_right (s := pre ++ y :: mid) (t := y :: suf) (pre.length + mid.length + 1) x (by simp; omega)
  rw [h2]
  congr 1
  rw [show pre.length + mid.length + 1 - (pre ++ y :: mid).length = 0 by simp; omega]
  rfl

theorem reverseLoop_eq (a : Sl) (m : Mem T) (fuel : Nat) : ∀ (pre mid suf : List T), (pre ++ mid ++ suf).length = a.len → mid.length < 2 * fuel →
    reverseLoop a fuel (pre.length : Int) (pre.length + mid.length - 1) (m.write a.off (pre ++ mid ++ suf))
      = .ok () (m.write a.off (pre ++ mid.reverse ++ suf)) := by
  induction fuel with
  | zero => intro _ _ _ _ h; omega
  | succ fuel ih =>
    intro pre mid suf hl hf
    unfold reverseLoop
    match mid with
    | [] => rw [if_neg (by simp; omega)]; rfl
    | [x] => rw [if_neg (by simp)]; rfl
    | x :: y :: mid =>
      rw [if_pos (by simp; omega)]
      obtain ⟨mid', z, hz⟩ : ∃ mid' z, y :: mid = mid' ++ [z] := ⟨(y :: mid).dropLast, (y :: mid).getLast (by simp), (List.dropLast_concat_getLast (by simp)).symm⟩
      rw [hz] at hl hf ⊢
      have hlist : pre ++ x :: (mid' ++ [z]) ++ suf = pre ++ x :: mid' ++ z :: suf := by simp
      have hidx : ((pre.length : Int) + ((x :: (mid' ++ [z])).length : Int) - 1) = ((pre.length + mid'.length + 1 : Nat) : Int) := by simp; omega
      rw [hidx]
      simp only [GoM.bind_def]
      rw [hlist] at hl ⊢
      rw [swapAt_eq a m _ hl pre.length (pre.length + mid'.length + 1) (by simp) (by simp; omega)]
      have hx : (pre ++ x :: mid' ++ z :: suf)[pre.length]'(by simp) = x := by simp
      have hy : (pre ++ x :: mid' ++ z :: suf)[pre.length + mid'.length + 1]'(by simp; omega) = z := by
        rw [List.getElem_append_right (by simp; omega)]
        simp [show pre.length + mid'.length + 1 - (pre.length + (mid'.length + 1)) = 0 by omega]
      rw [hx, hy, swap_ends]
      have := ih (pre ++ [z]) mid' (x :: suf) (by simp at hl ⊢; omega) (by simp at hf; omega)
      simp only [List.length_append, List.length_singleton] at this
      rw [show ((pre.length + 1 : Nat) : Int) = (pre.length : Int) + 1 by omega] at this
      rw [show ((pre.length + mid'.length + 1 : Nat) : Int) - 1 = (pre.length : Int) + 1 + mid'.length - 1 by omega]
      simp at this ⊢
      exact this

theorem reverse_eq (a : Sl) (m : Mem T) : reverse a m = .ok () (m.write a.off (a.read m).reverse) := by
  have := reverseLoop_eq a m (a.len + 1) [] (a.read m) [] (by simp) (by simp; omega)
  simpa [Sl.write_read, reverse] using this

theorem set_set_perm (xs : List T) (i j : Nat) (hi : i < xs.length) (hj : j < xs.length) : ((xs.set i xs[j]).set j xs[i]).Perm xs :=
  List.set_set_perm hi hj

theorem shuffle_eq (a : Sl) (m : Mem T) (draws : List (Nat × Nat)) : ∀ xs : List T, xs.length = a.len → (∀ d ∈ draws, d.1 < a.len ∧ d.2 < a.len) →
    ∃ ys, shuffle a draws (m.write a.off xs) = .ok () (m.write a.off ys) ∧ ys.Perm xs := by
  induction draws with
  | nil => intro xs _ _; exact ⟨xs, rfl, .refl _⟩
  | cons d draws ih =>
    obtain ⟨i, j⟩ := d
    intro xs hl hd
    have hd0 := hd (i, j) (by simp)
    simp only at hd0
    simp only [shuffle, GoM.bind_def]
    rw [swapAt_eq a m xs hl i j (by omega) (by omega)]
    obtain ⟨ys, e, hp⟩ := ih ((xs.set i (xs[j]'(by omega))).set j (xs[i]'(by omega))) (by simpa using hl) (fun d h => hd d (by simp [h]))
    exact ⟨ys, e, hp.trans (set_set_perm xs i j (by omega) (by omega))⟩

end Stl4go
