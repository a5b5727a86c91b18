import Verif.Spec.SliceCost
import Verif.Spec.Growth
/-! # Counting element accesses -/
namespace Stl4go
variable {T R S σ α β : Type}

/-- At most `k` accesses, and `Q` of the result. -/
def Within [HasMem S T] (s : S) (x : GoM (S × Nat) α) (y : GoM S α) (k : Nat) (Q : α → S → Prop) : Prop :=
  AtMost k s x y ∧ ∀ a s', y s = .ok a s' → Q a s'

section
variable [HasMem S T] {s : S} {x : GoM (S × Nat) α} {y : GoM S α} {k : Nat} {Q : α → S → Prop}

theorem onlyAt_nil {m m' : Mem T} (h : m'.top = m.top) : OnlyAt [] m' m' m := ⟨h, fun _ h => (nomatch h), fun _ _ => rfl⟩

theorem OnlyAt.more {L : List Nat} {m m' : Mem T} (h : m'.top = m.top) (hL : ∀ k ∈ L, m'.cell k = m.cell k) : OnlyAt L m' m' m := ⟨h, hL, fun _ _ => rfl⟩

theorem Sees.pure (a : α) (s : S) : Sees [] s (Pure.pure a : GoM S α) := fun m h _ => ⟨m, rfl, onlyAt_nil h⟩

theorem Within.pure {a : α} (h : Q a s) : Within s (Pure.pure a) (Pure.pure a) 0 Q :=
  ⟨⟨0, [], Nat.le_refl _, fun _ => rfl, Nat.le_refl _, Sees.pure a s⟩, fun a s' e => by cases e; exact h⟩

theorem Within.stop : Within s (GoM.panic : GoM (S × Nat) α) GoM.panic 0 Q :=
  ⟨⟨0, [], Nat.le_refl _, fun _ => rfl, Nat.le_refl _, fun m h _ => ⟨m, rfl, onlyAt_nil h⟩⟩, fun a s' e => by cases e⟩

theorem Within.forever : Within s (GoM.diverge : GoM (S × Nat) α) GoM.diverge 0 Q :=
  ⟨⟨0, [], Nat.le_refl _, fun _ => rfl, Nat.le_refl _, fun _ _ _ => rfl⟩, fun a s' e => by cases e⟩

theorem Within.mono {k' : Nat} {Q' : α → S → Prop} (h : Within s x y k Q) (hk : k ≤ k') (hq : ∀ a s', Q a s' → Q' a s') : Within s x y k' Q' := by
  obtain ⟨⟨c, L, hc, e⟩, h⟩ := h
  exact ⟨⟨c, L, Nat.le_trans hc hk, e⟩, fun a s' h' => hq _ _ (h a s' h')⟩

/-- A primitive that always returns. -/
theorem Within.count (c : S → Nat) (L : List Nat) (hL : L.length ≤ c s) (hs : Sees L s y) (a : α) (s1 : S) (e : y s = .ok a s1) (h : Q a s1) :
    Within s (GoM.count c y) y (c s) Q := by
  refine ⟨⟨c s, L, Nat.le_refl _, fun n => by simp only [GoM.count, e, Res.beside], hL, hs⟩, fun b s' e' => ?_⟩
  rw [e] at e'; cases e'; exact h

/-- A primitive that panics. -/
theorem Within.fails (c : S → Nat) (e : y s = .panic s) (hs : ∀ m, y (HasMem.put s m) = .panic (HasMem.put s m)) : Within s (GoM.count c y) y (c s) Q := by
  refine ⟨⟨0, [], Nat.zero_le _, fun n => by simp only [GoM.count, e, Res.beside, Nat.add_zero], Nat.le_refl _, fun m h _ => ?_⟩, fun b s' e' => ?_⟩
  · rw [e]; exact ⟨m, hs m, onlyAt_nil h⟩
  · rw [e] at e'; cases e'

theorem put_inj {m m' : Mem T} (h : HasMem.put s m = HasMem.put s m') : m = m' := by
  have := congrArg (HasMem.mem (S := S)) h
  rwa [HasMem.mem_put, HasMem.mem_put] at this

/-- What is not in `L` is as in state `s`. -/
def KeptOff (L : List Nat) (s : S) (r : Res S α) : Prop :=
  match r with
  | .ok _ s' => ∀ k, k ∉ L → (HasMem.mem s').cell k = (HasMem.mem s).cell k
  | .panic s' => ∀ k, k ∉ L → (HasMem.mem s').cell k = (HasMem.mem s).cell k
  | .diverge => True

theorem Sees.keeps {L : List Nat} (h : Sees L s y) : KeptOff L s (y s) := by
  have := h (HasMem.mem s) rfl (fun _ _ => rfl)
  rw [HasMem.put_mem] at this
  cases hr : y s with
  | ok a s' =>
    rw [hr] at this
    obtain ⟨m', e, h1, h2, h3⟩ := this
    simp only [Res.ok.injEq, true_and] at e
    have e : HasMem.mem s' = m' := by rw [e, HasMem.mem_put]
    intro k hk
    rw [e]; exact h3 k hk
  | panic s' =>
    rw [hr] at this
    obtain ⟨m', e, h1, h2, h3⟩ := this
    simp only [Res.panic.injEq] at e
    have e : HasMem.mem s' = m' := by rw [e, HasMem.mem_put]
    intro k hk
    rw [e]; exact h3 k hk
  | diverge => trivial

theorem Sees.bind {L1 L2 : List Nat} {g : α → GoM S β} {a : α} {s' : S} (h1 : Sees L1 s y) (e : y s = .ok a s') (h2 : Sees L2 s' (g a)) : Sees (L1 ++ L2) s (y >>= g) := by
  intro m ht hm
  have k1 := h1.keeps
  rw [e] at k1
  have k2 := h2.keeps
  have a1 := h1 m ht (fun k hk => hm k (List.mem_append_left _ hk))
  rw [e] at a1
  obtain ⟨m1, e1, t1, in1, out1⟩ := a1
  have agree : ∀ k ∈ L2, m1.cell k = (HasMem.mem s').cell k := by
    intro k hk
    by_cases hk1 : k ∈ L1
    · exact in1 k hk1
    · rw [out1 k hk1, k1 k hk1]; exact hm k (List.mem_append_right _ hk)
  have a2 := h2 m1 t1 agree
  rw [GoM.bind_def, e, GoM.bind_def, e1]
  simp only
  have fin : ∀ {s2 : S} {m2 : Mem T}, OnlyAt L2 m1 m2 (HasMem.mem s2) → (∀ k, k ∉ L2 → (HasMem.mem s2).cell k = (HasMem.mem s').cell k) →
      OnlyAt (L1 ++ L2) m m2 (HasMem.mem s2) := by
    intro s2 m2 ⟨t2, in2, out2⟩ kk
    refine ⟨t2, fun k hk => ?_, fun k hk => ?_⟩
    · by_cases hk2 : k ∈ L2
      · exact in2 k hk2
      · rw [out2 k hk2, kk k hk2]
        rcases List.mem_append.1 hk with h | h
        · exact in1 k h
        · exact absurd h hk2
    · rw [out2 k (fun h => hk (List.mem_append_right _ h)), out1 k (fun h => hk (List.mem_append_left _ h))]
  cases eg : g a s' with
  | ok b s2 =>
    rw [eg] at a2 k2
    obtain ⟨m2, e2, o2⟩ := a2
    exact ⟨m2, e2, fin o2 k2⟩
  | panic s2 =>
    rw [eg] at a2 k2
    obtain ⟨m2, e2, o2⟩ := a2
    exact ⟨m2, e2, fin o2 k2⟩
  | diverge =>
    rw [eg] at a2
    exact a2

theorem Within.bind {f : α → GoM (S × Nat) β} {g : α → GoM S β} {Q2 : β → S → Prop} {k2 k3 : Nat} (hx : Within s x y k Q)
    (hf : ∀ a s', Q a s' → Within s' (f a) (g a) k2 Q2) (hk : k + k2 ≤ k3) : Within s (x >>= f) (y >>= g) k3 Q2 := by
  obtain ⟨⟨c, L, hc, e, hL, hs⟩, h⟩ := hx
  cases ey : y s with
  | ok a s' =>
    obtain ⟨⟨c2, L2, hc2, e2, hL2, hs2⟩, h2⟩ := hf a s' (h a s' ey)
    have e2 : ∀ n, f a (s', n) = (g a s').beside (n + c2) := e2
    refine ⟨⟨c + c2, L ++ L2, by omega, fun n => ?_, by rw [List.length_append]; omega, hs.bind ey hs2⟩, fun b s2 eb => ?_⟩
    · rw [GoM.bind_def, e, ey, GoM.bind_def, ey]
      exact (e2 (n + c)).trans (by rw [Nat.add_assoc])
    · rw [GoM.bind_def, ey] at eb
      exact h2 b s2 eb
  | panic s' =>
    refine ⟨⟨c, L, by omega, fun n => ?_, hL, fun m ht hm => ?_⟩, fun b s2 eb => ?_⟩
    · rw [GoM.bind_def, e, ey, GoM.bind_def, ey]
      simp only [Res.beside]
    · have := hs m ht hm
      rw [ey] at this
      obtain ⟨m', e', o'⟩ := this
      rw [GoM.bind_def, ey, GoM.bind_def, e']
      exact ⟨m', rfl, o'⟩
    · rw [GoM.bind_def, ey] at eb; cases eb
  | diverge =>
    refine ⟨⟨c, L, by omega, fun n => ?_, hL, fun m ht hm => ?_⟩, fun b s2 eb => ?_⟩
    · rw [GoM.bind_def, e, ey, GoM.bind_def, ey]
      simp only [Res.beside]
    · have := hs m ht hm
      rw [ey] at this
      rw [GoM.bind_def, ey, GoM.bind_def, (show y (HasMem.put s m) = .diverge from this)]
      rfl
    · rw [GoM.bind_def, ey] at eb; cases eb

theorem Within.ite {c : Prop} [Decidable c] {x' : GoM (S × Nat) α} {y' : GoM S α} (h1 : c → Within s x y k Q) (h2 : ¬ c → Within s x' y' k Q) :
    Within s (if c then x else x') (if c then y else y') k Q := by
  by_cases h : c
  · rw [if_pos h, if_pos h]; exact h1 h
  · rw [if_neg h, if_neg h]; exact h2 h
end

/-! ## Primitives -/

/-- The addresses of the first `n` elements of a slice at `off`. -/
def addrs (off n : Nat) : List Nat := (List.range n).map (fun i => off + i)

theorem addrs_length (off n : Nat) : (addrs off n).length = n := by simp [addrs]

theorem mem_addrs {off n k : Nat} : k ∈ addrs off n ↔ off ≤ k ∧ k < off + n := by
  simp only [addrs, List.mem_map, List.mem_range]
  constructor
  · rintro ⟨i, hi, rfl⟩; omega
  · intro h; exact ⟨k - off, by omega, by omega⟩

theorem read_agree {L : List Nat} {m m' : Mem T} (a : Sl) (h : ∀ k ∈ L, m'.cell k = m.cell k) (ha : ∀ k ∈ addrs a.off a.len, k ∈ L) : a.read m' = a.read m := by
  simp only [Sl.read]
  apply List.map_congr_left
  intro i hi
  exact h _ (ha _ (mem_addrs.2 ⟨by omega, by have := List.mem_range.1 hi; omega⟩))

theorem write_agree {L : List Nat} {m m' : Mem T} {off : Nat} {xs : List T} (ht : m'.top = m.top) (h : ∀ k ∈ L, m'.cell k = m.cell k)
    (hx : ∀ k ∈ addrs off xs.length, k ∈ L) : OnlyAt L m' (m'.write off xs) (m.write off xs) := by
  refine ⟨ht, fun k hk => ?_, fun k hk => ?_⟩
  · simp only [Mem.write]
    rw [h k hk]
  · simp only [Mem.write]
    split
    · rename_i hle
      rw [List.getElem?_eq_none]
      · rfl
      · have : ¬ k < off + xs.length := fun hlt => hk (hx k (mem_addrs.2 ⟨hle, hlt⟩))
        omega
    · rfl

section
variable {m : Mem T}

theorem getAcc_within (a : Sl) (i : Int) : Within m (a.getAcc i) (a.get i) 1 (fun _ _ => True) := by
  by_cases h : 0 ≤ i ∧ i < a.len
  · refine Within.count _ [a.off + i.toNat] (Nat.le_refl _) (fun m' ht hm => ?_) (m.cell (a.off + i.toNat)) m (by simp only [Sl.get, if_pos h]) trivial
    have hc : m'.cell (a.off + i.toNat) = m.cell (a.off + i.toNat) := hm _ (List.mem_singleton.2 rfl)
    simp only [Sl.get, if_pos h]
    exact ⟨m', congrArg (fun x => Res.ok x m') hc, OnlyAt.more ht hm⟩
  · exact Within.fails _ (by simp only [Sl.get, if_neg h]) (fun m' => by simp only [Sl.get, if_neg h])

theorem putAcc_within (a : Sl) (i : Int) (v : T) : Within m (a.putAcc i v) (a.put i v) 1 (fun _ _ => True) := by
  by_cases h : 0 ≤ i ∧ i < a.len
  · refine Within.count _ [a.off + i.toNat] (Nat.le_refl _) (fun m' ht hm => ?_) _ _ (by simp only [Sl.put, if_pos h]; rfl) trivial
    simp only [Sl.put, if_pos h]
    exact ⟨_, rfl, write_agree ht hm (fun k hk => by have := mem_addrs.1 hk; simp only [List.length_singleton] at this; exact List.mem_singleton.2 (by omega))⟩
  · exact Within.fails _ (by simp only [Sl.put, if_neg h]) (fun m' => by simp only [Sl.put, if_neg h])

theorem sliceAcc_within (a : Sl) (lo hi : Int) : Within m (a.sliceAcc lo hi) (a.slice lo hi) 0
    (fun b _ => 0 ≤ lo ∧ lo ≤ hi ∧ hi ≤ a.cap ∧ (b.len : Int) = hi - lo ∧ (b.cap : Int) = a.cap - lo) := by
  by_cases h : 0 ≤ lo ∧ lo ≤ hi ∧ hi ≤ a.cap
  · refine Within.count _ [] (Nat.le_refl _) (fun m' ht hm => ?_) ⟨a.off + lo.toNat, (hi - lo).toNat, a.cap - lo.toNat⟩ m (by simp only [Sl.slice, if_pos h]) ?_
    · simp only [Sl.slice, if_pos h]
      exact ⟨m', rfl, OnlyAt.more ht hm⟩
    · simp only; omega
  · exact Within.fails _ (by simp only [Sl.slice, if_neg h]) (fun m' => by simp only [Sl.slice, if_neg h])

theorem loadAcc_within (a : Sl) : Within m a.loadAcc a.load a.len (fun ys _ => ys.length = a.len) := by
  refine Within.count _ (addrs a.off a.len) (Nat.le_of_eq (addrs_length _ _)) (fun m' ht hm => ?_) _ m rfl (by simp [Sl.read])
  refine ⟨m', ?_, OnlyAt.more ht hm⟩
  have : a.read m' = a.read m := read_agree a hm (fun _ h => h)
  show Res.ok (a.read m') m' = Res.ok (a.read m) m'
  rw [this]

theorem copyAcc_within (a b : Sl) : Within m (a.copyAcc b) (a.copy b) (2 * min a.len b.len) (fun _ _ => True) := by
  have hr : ∀ m : Mem T, ((b.read m).take a.len) = Sl.read m ⟨b.off, min a.len b.len, b.cap⟩ := by
    intro m
    simp only [Sl.read, ← List.map_take, List.take_range]
  refine Within.count _ (addrs b.off (min a.len b.len) ++ addrs a.off (min a.len b.len)) (by simp only [List.length_append, addrs_length]; omega)
    (fun m' ht hm => ?_) _ _ rfl trivial
  have h := read_agree (⟨b.off, min a.len b.len, b.cap⟩ : Sl) hm (fun _ h => List.mem_append_left _ h)
  refine ⟨m'.write a.off ((b.read m').take a.len), rfl, ?_⟩
  rw [hr m', h]
  show OnlyAt _ _ _ (m.write a.off ((b.read m).take a.len))
  rw [hr m]
  exact write_agree ht hm (fun k hk => List.mem_append_right _ (by simpa [Sl.read] using hk))

variable [GoZero T]

omit [GoZero T] in
theorem alloc_agree {L : List Nat} {m' : Mem T} {xs : List T} (ht : m'.top = m.top) (h : ∀ k ∈ L, m'.cell k = m.cell k)
    (hx : ∀ k ∈ addrs m.top xs.length, k ∈ L) : OnlyAt L m' (m'.alloc xs) (m.alloc xs) := by
  have := write_agree (off := m.top) ht h hx
  simp only [Mem.alloc, ht]
  exact ⟨rfl, this.2.1, this.2.2⟩

theorem makeAcc_within (n c : Int) : Within m (Sl.makeAcc n c) (Sl.make n c) c.toNat (fun b _ => 0 ≤ n ∧ n ≤ c ∧ (b.len : Int) = n ∧ (b.cap : Int) = c) := by
  by_cases h : 0 ≤ n ∧ n ≤ c
  · refine Within.count _ (addrs m.top c.toNat) (Nat.le_of_eq (addrs_length _ _)) (fun m' ht hm => ?_) _ _ (by simp only [Sl.make, if_pos h]; rfl) ?_
    · have ht' : m'.top = m.top := ht
      simp only [Sl.make, if_pos h]
      refine ⟨m'.alloc (List.replicate c.toNat GoZero.zero), ?_, alloc_agree ht hm (fun k hk => by simpa using hk)⟩
      show Res.ok (Sl.mk m'.top n.toNat c.toNat) _ = Res.ok (Sl.mk m.top n.toNat c.toNat) _
      rw [ht']; rfl
    · simp only; omega
  · exact Within.fails _ (by simp only [Sl.make, if_neg h]) (fun m' => by simp only [Sl.make, if_neg h])

theorem clearAcc_within (a : Sl) : Within m a.clearAcc a.clear a.len (fun _ _ => True) := by
  refine Within.count _ (addrs a.off a.len) (Nat.le_of_eq (addrs_length _ _)) (fun m' ht hm => ?_) _ _ rfl trivial
  exact ⟨_, rfl, write_agree ht hm (fun k hk => by simpa using hk)⟩

theorem appendAcc_within (grow : Nat → Nat → Nat) (a : Sl) (ys : List T) : Within m (a.appendAcc grow ys) (a.append grow ys)
    (if a.len + ys.length ≤ a.cap then ys.length else a.len + max (a.len + ys.length) (grow a.cap (a.len + ys.length)))
    (fun b _ => b.len = a.len + ys.length ∧ b.cap = if a.len + ys.length ≤ a.cap then a.cap else max (a.len + ys.length) (grow a.cap (a.len + ys.length))) := by
  by_cases h : a.len + ys.length ≤ a.cap
  · refine Within.count _ (addrs (a.off + a.len) ys.length) (by simp only [if_pos h, addrs_length]; exact Nat.le_refl _) (fun m' ht hm => ?_)
      { a with len := a.len + ys.length } (m.write (a.off + a.len) ys) (by simp only [Sl.append, if_pos h]) ⟨rfl, (if_pos h).symm⟩
    simp only [Sl.append, if_pos h]
    exact ⟨_, rfl, write_agree ht hm (fun k hk => hk)⟩
  · refine Within.count _ (addrs a.off a.len ++ addrs m.top (max (a.len + ys.length) (grow a.cap (a.len + ys.length))))
      (by simp only [if_neg h, List.length_append, addrs_length]; exact Nat.le_refl _) (fun m' ht hm => ?_) _ _
      (by simp only [Sl.append, if_neg h]; rfl) ⟨rfl, (if_neg h).symm⟩
    have ht' : m'.top = m.top := ht
    have hr := read_agree a hm (fun _ h => List.mem_append_left _ h)
    have hr' : a.read m' = a.read m := hr
    simp only [Sl.append, if_neg h]
    refine ⟨m'.alloc (a.read m ++ ys ++ List.replicate (max (a.len + ys.length) (grow a.cap (a.len + ys.length)) - (a.len + ys.length)) GoZero.zero), ?_,
      alloc_agree ht hm (fun k hk => List.mem_append_right _ ?_)⟩
    · show Res.ok (Sl.mk m'.top _ _) (m'.alloc (a.read m' ++ _ ++ _)) = Res.ok (Sl.mk m.top _ _) _
      rw [ht', hr']; rfl
    · simp only [List.length_append, List.length_replicate, Sl.read, List.length_map, List.length_range] at hk
      rwa [show a.len + ys.length + (max (a.len + ys.length) (grow a.cap (a.len + ys.length)) - (a.len + ys.length)) =
        max (a.len + ys.length) (grow a.cap (a.len + ys.length)) by omega] at hk

/-- While there is room. -/
theorem appendAcc_room (grow : Nat → Nat → Nat) (a : Sl) (ys : List T) (h : a.len + ys.length ≤ a.cap) : Within m (a.appendAcc grow ys) (a.append grow ys) ys.length
    (fun b _ => b.len = a.len + ys.length ∧ b.cap = a.cap) := by
  have := appendAcc_within (m := m) grow a ys
  simpa only [if_pos h] using this
end

/-! ## `transform.go`, in place -/

section
variable {m : Mem T}

theorem fillLoopAcc_within (a : Sl) (ha : a.len < 2 ^ 63) : ∀ (fuel : Nat) (j : Int) (m : Mem T), j ≠ 0 →
    Within m (fillLoopAcc a fuel j) (fillLoop a fuel j) (if 0 < j then 2 * (a.len - j).toNat else 0) (fun _ _ => True) := by
  intro fuel
  induction fuel with
  | zero => intro j m _; exact Within.forever.mono (Nat.zero_le _) (fun _ _ h => h)
  | succ fuel ih =>
    intro j m hj
    refine Within.ite (fun hlt => ?_) (fun _ => (Within.pure trivial).mono (Nat.zero_le _) (fun _ _ h => h))
    by_cases hp : 0 < j
    · rw [if_pos hp]
      refine (sliceAcc_within a j a.len).bind (fun d m1 hd => (sliceAcc_within a 0 j).bind (fun s m2 hs => ?_) (Nat.le_of_eq (Nat.zero_add _))) (Nat.le_of_eq (Nat.zero_add _))
      have hw : wrap64 (j * 2) = j * 2 ∨ wrap64 (j * 2) < 0 := by
        simp only [wrap64]; omega
      refine (copyAcc_within d s).bind (fun _ m3 _ => ih _ _ (by omega)) ?_
      rcases hw with e | e
      · rw [e]; split <;> omega
      · rw [if_neg (by omega)]; omega
    · rw [if_neg hp]
      exact (sliceAcc_within a j a.len).bind (k2 := 0) (fun d m1 hd => absurd hd.1 (by omega)) (Nat.le_refl _)

theorem fillAcc_within (a : Sl) (v : T) (ha : a.len < 2 ^ 63) : Within m (fillAcc a v) (fill a v) (2 * a.len) (fun _ _ => True) := by
  refine Within.ite (fun h => (Within.pure trivial).mono (Nat.zero_le _) (fun _ _ h => h)) (fun h => ?_)
  refine (putAcc_within a 0 v).bind (fun _ m1 _ => fillLoopAcc_within a ha _ _ _ (by omega)) ?_
  rw [if_pos (by omega)]; omega

theorem fillPatternAcc_within (a p : Sl) (ha : a.len < 2 ^ 63) : Within m (fillPatternAcc a p) (fillPattern a p) (2 * a.len) (fun _ _ => True) := by
  refine Within.ite (fun h => Within.stop.mono (Nat.zero_le _) (fun _ _ h => h)) (fun h => ?_)
  refine (copyAcc_within a p).bind (fun _ m1 _ => fillLoopAcc_within a ha _ _ _ (by omega)) ?_
  split <;> omega

theorem transformLoopAcc_within (a : Sl) (op : σ → T → σ × T) : ∀ (n i : Nat) (t : σ) (m : Mem T),
    Within m (transformLoopAcc a op n i t) (transformLoop a op n i t) (2 * n) (fun _ _ => True) := by
  intro n
  induction n with
  | zero => intro i t m; exact Within.pure trivial
  | succ n ih =>
    intro i t m
    exact (getAcc_within a i).bind (fun v _ _ => (putAcc_within a i _).bind (fun _ _ _ => ih _ _ _) (Nat.le_refl _)) (by omega)

theorem replaceLoopAcc_within [GoEq T] (a : Sl) (old new : T) : ∀ (n i : Nat) (m : Mem T),
    Within m (replaceLoopAcc a old new n i) (replaceLoop a old new n i) (2 * n) (fun _ _ => True) := by
  intro n
  induction n with
  | zero => intro i m; exact Within.pure trivial
  | succ n ih =>
    intro i m
    exact (getAcc_within a i).bind (fun v _ _ => Within.ite (fun _ => (putAcc_within a i _).bind (fun _ _ _ => ih _ _) (Nat.le_refl _))
      (fun _ => (ih _ _).mono (Nat.le_add_left _ _) (fun _ _ h => h))) (by omega)

theorem replaceIfLoopAcc_within (a : Sl) (pred : σ → T → σ × Bool) (new : T) : ∀ (n i : Nat) (t : σ) (m : Mem T),
    Within m (replaceIfLoopAcc a pred new n i t) (replaceIfLoop a pred new n i t) (2 * n) (fun _ _ => True) := by
  intro n
  induction n with
  | zero => intro i t m; exact Within.pure trivial
  | succ n ih =>
    intro i t m
    exact (getAcc_within a i).bind (fun v _ _ => Within.ite (fun _ => (putAcc_within a i _).bind (fun _ _ _ => ih _ _ _) (Nat.le_refl _))
      (fun _ => (ih _ _ _).mono (Nat.le_add_left _ _) (fun _ _ h => h))) (by omega)

theorem uniqueLoopAcc_within [GoEq T] (a b : Sl) : ∀ (n k i : Nat) (p : T) (m : Mem T),
    Within m (uniqueLoopAcc a b n k i p) (uniqueLoop a b n k i p) (2 * n) (fun _ _ => True) := by
  intro n
  induction n with
  | zero => intro k i p m; exact Within.pure trivial
  | succ n ih =>
    intro k i p m
    exact (getAcc_within b k).bind (fun v _ _ => Within.ite (fun _ => (putAcc_within a i _).bind (fun _ _ _ => ih _ _ _ _) (Nat.le_refl _))
      (fun _ => (ih _ _ _ _).mono (Nat.le_add_left _ _) (fun _ _ h => h))) (by omega)

theorem uniqueAcc_within [GoEq T] (a : Sl) : Within m (uniqueAcc a) (unique a) (2 * a.len) (fun _ _ => True) := by
  refine Within.ite (fun _ => (Within.pure trivial).mono (Nat.zero_le _) (fun _ _ h => h)) (fun h => ?_)
  refine (getAcc_within a 0).bind (k2 := 2 * (a.len - 1)) (fun p _ _ => (sliceAcc_within a 1 a.len).bind (k2 := 2 * (a.len - 1)) (fun b _ hb => ?_) (by omega)) (by omega)
  exact (uniqueLoopAcc_within a b _ _ _ _ _).bind (fun i _ _ => (sliceAcc_within a 0 i).mono (Nat.le_refl _) (fun _ _ _ => trivial)) (by omega)

theorem removeLoopAcc_within [GoEq T] (a : Sl) (x : T) : ∀ (n k j : Nat) (m : Mem T),
    Within m (removeLoopAcc a x n k j) (removeLoop a x n k j) (2 * n) (fun _ _ => True) := by
  intro n
  induction n with
  | zero => intro k j m; exact Within.pure trivial
  | succ n ih =>
    intro k j m
    exact (getAcc_within a k).bind (fun v _ _ => Within.ite (fun _ => (putAcc_within a j _).bind (fun _ _ _ => ih _ _ _) (Nat.le_refl _))
      (fun _ => (ih _ _ _).mono (Nat.le_add_left _ _) (fun _ _ h => h))) (by omega)

theorem removeAcc_within [GoEq T] (a : Sl) (x : T) : Within m (removeAcc a x) (remove a x) (2 * a.len) (fun _ _ => True) :=
  (removeLoopAcc_within a x _ _ _ _).bind (fun j _ _ => (sliceAcc_within a 0 j).mono (Nat.le_refl _) (fun _ _ _ => trivial)) (Nat.le_refl _)

theorem removeIfLoopAcc_within (a : Sl) (cond : σ → T → σ × Bool) : ∀ (n k j : Nat) (t : σ) (m : Mem T),
    Within m (removeIfLoopAcc a cond n k j t) (removeIfLoop a cond n k j t) (2 * n) (fun _ _ => True) := by
  intro n
  induction n with
  | zero => intro k j t m; exact Within.pure trivial
  | succ n ih =>
    intro k j t m
    exact (getAcc_within a k).bind (fun v _ _ => Within.ite (fun _ => (putAcc_within a j _).bind (fun _ _ _ => ih _ _ _ _) (Nat.le_refl _))
      (fun _ => (ih _ _ _ _).mono (Nat.le_add_left _ _) (fun _ _ h => h))) (by omega)

theorem removeIfAcc_within (a : Sl) (cond : σ → T → σ × Bool) (t : σ) :
    Within m (removeIfAcc a cond t) (removeIf a cond t) (2 * a.len) (fun _ _ => True) :=
  (removeIfLoopAcc_within a cond _ _ _ _ _).bind (fun r _ _ => (sliceAcc_within a 0 r.2).bind (fun _ _ _ => Within.pure trivial) (Nat.le_refl _)) (Nat.le_refl _)

theorem swapAtAcc_within (a : Sl) (i j : Int) : Within m (swapAtAcc a i j) (swapAt a i j) 4 (fun _ _ => True) :=
  (getAcc_within a j).bind (fun y _ _ => (getAcc_within a i).bind (fun x _ _ => (putAcc_within a i y).bind (fun _ _ _ => putAcc_within a j x) (Nat.le_refl _)) (Nat.le_refl _)) (Nat.le_refl _)

theorem shuffleAcc_within (a : Sl) (draws : List (Nat × Nat)) : ∀ (m : Mem T), Within m (shuffleAcc a draws) (shuffle a draws) (4 * draws.length) (fun _ _ => True) := by
  induction draws with
  | nil => intro m; exact Within.pure trivial
  | cons d draws ih =>
    intro m
    exact (swapAtAcc_within a d.1 d.2).bind (fun _ _ _ => ih _) (by simp only [List.length_cons]; omega)

theorem reverseLoopAcc_within (a : Sl) : ∀ (fuel : Nat) (i j : Int) (m : Mem T),
    Within m (reverseLoopAcc a fuel i j) (reverseLoop a fuel i j) (2 * (j - i + 1).toNat) (fun _ _ => True) := by
  intro fuel
  induction fuel with
  | zero => intro i j m; exact Within.forever.mono (Nat.zero_le _) (fun _ _ h => h)
  | succ fuel ih =>
    intro i j m
    refine Within.ite (fun h => ?_) (fun _ => (Within.pure trivial).mono (Nat.zero_le _) (fun _ _ h => h))
    exact (swapAtAcc_within a i j).bind (fun _ _ _ => ih _ _ _) (by omega)
end

/-! ## `transform.go`, into new slices -/

section
variable {m : Mem T} [GoZero T] {grow : Nat → Nat → Nat}

/-- What `n` appends to a slice may cost, with `j` accesses more for each. -/
def pushCost (K len cap n : Nat) : Nat := n + 9 * (2 * (len + n) + K - cap)

/-- One append pays for itself. -/
theorem appendAcc_paid (hg : Geometric grow) {K : Nat} (hm : Modest grow K) (a : Sl) (v : T) (n : Nat) (ha : a.len ≤ a.cap) :
    ∃ k, k ≤ pushCost K a.len a.cap (n + 1) ∧ Within m (a.appendAcc grow [v]) (a.append grow [v]) k
      (fun b _ => b.len = a.len + 1 ∧ b.len ≤ b.cap ∧ k + pushCost K b.len b.cap n ≤ pushCost K a.len a.cap (n + 1)) := by
  by_cases h : a.len + 1 ≤ a.cap
  · refine ⟨1, by simp only [pushCost]; omega, (appendAcc_room grow a [v] h).mono (Nat.le_refl _) (fun b _ hb => ?_)⟩
    obtain ⟨h1, h2⟩ := hb
    simp only [List.length_singleton] at h1
    simp only [pushCost]; omega
  · have g1 := hg a.cap (a.len + 1) (by omega)
    have g2 := hm a.cap (a.len + 1) (by omega)
    refine ⟨a.len + max (a.len + 1) (grow a.cap (a.len + 1)), by simp only [pushCost]; omega, (appendAcc_within grow a [v]).mono ?_ (fun b _ hb => ?_)⟩
    · simp only [List.length_singleton, if_neg h]; exact Nat.le_refl _
    · simp only [List.length_singleton, if_neg h] at hb
      simp only [pushCost]; omega

/-- An append, and then a loop with one append less to come. -/
theorem appendAcc_bind (hg : Geometric grow) {K : Nat} (hm : Modest grow K) {a : Sl} {v : T} {n e : Nat} (ha : a.len ≤ a.cap) {f : Sl → GoM (Mem T × Nat) α}
    {g : Sl → GoM (Mem T) α} {Q : α → Mem T → Prop} (hf : ∀ b m', b.len ≤ b.cap → b.len = a.len + 1 → Within m' (f b) (g b) (e + pushCost K b.len b.cap n) Q) :
    Within m (a.appendAcc grow [v] >>= f) (a.append grow [v] >>= g) (e + pushCost K a.len a.cap (n + 1)) Q := by
  obtain ⟨k, hk1, hk⟩ := appendAcc_paid (m := m) hg hm a v n ha
  exact hk.bind (k2 := e + pushCost K a.len a.cap (n + 1) - k) (fun b m' hb => (hf b m' hb.2.1 hb.1).mono (by omega) (fun _ _ h => h)) (by omega)

theorem pushCost_mono {K len cap n : Nat} : pushCost K len cap n ≤ pushCost K len cap (n + 1) := by simp only [pushCost]; omega

theorem transformToLoopAcc_within (hg : Geometric grow) {K : Nat} (hm : Modest grow K) (rd : Nat → GoM (Mem T × Nat) R) (rd' : Nat → GoM (Mem T) R)
    (hrd : ∀ i (m : Mem T), Within m (rd i) (rd' i) 1 (fun _ _ => True)) (op : σ → R → σ × T) : ∀ (n i : Nat) (t : σ) (b : Sl) (m : Mem T), b.len ≤ b.cap →
    Within m (transformToLoopAcc grow rd op n i t b) (transformToLoop grow rd' op n i t b) (n + pushCost K b.len b.cap n) (fun _ _ => True) := by
  intro n
  induction n with
  | zero => intro i t b m _; exact (Within.pure trivial).mono (Nat.zero_le _) (fun _ _ h => h)
  | succ n ih =>
    intro i t b m hb
    exact (hrd i m).bind (fun v m1 _ => appendAcc_bind hg hm hb (fun b' m' hb' _ => ih _ _ _ _ hb')) (by omega)

theorem transformToAcc_within (hg : Geometric grow) {K : Nat} (hm : Modest grow K) (a : Sl) (op : σ → T → σ × T) (t : σ) (b : Sl) :
    Within m (transformToAcc grow a op t b) (transformTo grow a op t b) (20 * a.len + 9 * K) (fun _ _ => True) := by
  refine (sliceAcc_within b 0 0).bind (k2 := 20 * a.len + 9 * K) (fun b' _ hb => ?_) (by omega)
  refine (transformToLoopAcc_within hg hm _ _ (fun i m => getAcc_within a i) op _ _ _ b' _ (by omega)).mono ?_ (fun _ _ h => h)
  simp only [pushCost]; omega

theorem uniqueCopyLoopAcc_within [GoEq T] (hg : Geometric grow) {K : Nat} (hm : Modest grow K) (a : Sl) : ∀ (n k : Nat) (r : Sl) (m : Mem T), r.len ≤ r.cap →
    Within m (uniqueCopyLoopAcc grow a n k r) (uniqueCopyLoop grow a n k r) (2 * n + pushCost K r.len r.cap n) (fun _ _ => True) := by
  intro n
  induction n with
  | zero => intro k r m _; exact (Within.pure trivial).mono (Nat.zero_le _) (fun _ _ h => h)
  | succ n ih =>
    intro k r m hr
    refine (getAcc_within a k).bind (k2 := 1 + (2 * n + pushCost K r.len r.cap (n + 1))) (fun v m1 _ => Within.ite (fun _ => ?_) (fun _ => ?_)) (by omega)
    · refine (getAcc_within r _).bind (fun l m2 _ => Within.ite (fun _ => ?_) (fun _ => ?_)) (Nat.le_refl _)
      · exact (ih _ _ _ hr).mono (Nat.add_le_add_left pushCost_mono _) (fun _ _ h => h)
      · exact appendAcc_bind hg hm hr (fun b' m' hb' _ => ih _ _ _ hb')
    · exact (appendAcc_bind hg hm hr (fun b' m' hb' _ => ih _ _ _ hb')).mono (Nat.le_add_left _ _) (fun _ _ h => h)

theorem uniqueCopyAcc_within [GoEq T] (hg : Geometric grow) {K : Nat} (hm : Modest grow K) (a : Sl) :
    Within m (uniqueCopyAcc grow a) (uniqueCopy grow a) (21 * a.len + 9 * K) (fun _ _ => True) := by
  refine Within.ite (fun _ => (Within.pure trivial).mono (Nat.zero_le _) (fun _ _ h => h)) (fun _ => ?_)
  refine (uniqueCopyLoopAcc_within hg hm a _ _ Sl.empty _ (Nat.le_refl _)).mono ?_ (fun _ _ h => h)
  simp only [pushCost, Sl.empty]; omega

theorem copySliceAcc_within {K : Nat} (hm : Modest grow K) (a : Sl) : Within m (copySliceAcc grow a) (copySlice grow a) (3 * a.len + K) (fun _ _ => True) := by
  refine (loadAcc_within a).bind (k2 := 2 * a.len + K) (fun ys _ hy => (appendAcc_within grow Sl.empty ys).mono ?_ (fun _ _ _ => trivial)) (by omega)
  have := hm Sl.empty.cap (Sl.empty.len + ys.length)
  have l0 : Sl.empty.len = 0 := rfl
  have c0 : Sl.empty.cap = 0 := rfl
  by_cases h0 : ys.length = 0
  · rw [if_pos (by omega)]; omega
  · rw [if_neg (by omega)]; have := this (by omega); omega

theorem copyToAcc_within {K : Nat} (hm : Modest grow K) (a b : Sl) : Within m (copyToAcc grow a b) (copyTo grow a b) (3 * a.len + K) (fun _ _ => True) := by
  refine (sliceAcc_within b 0 0).bind (k2 := 3 * a.len + K) (fun b' _ hb => ?_) (by omega)
  refine (loadAcc_within a).bind (k2 := 2 * a.len + K) (fun ys _ hy => (appendAcc_within grow b' ys).mono ?_ (fun _ _ _ => trivial)) (by omega)
  have := hm b'.cap (b'.len + ys.length)
  split
  · omega
  · have := this (by omega); omega

omit [GoZero T] in
theorem transformCopyLoopAcc_within (a : Sl) (op : σ → T → σ × T) (r : Sl) : ∀ (n i : Nat) (t : σ) (m : Mem T),
    Within m (transformCopyLoopAcc (fun i => a.getAcc i) op r n i t) (transformCopyLoop (fun i => a.get i) op r n i t) (2 * n) (fun _ _ => True) := by
  intro n
  induction n with
  | zero => intro i t m; exact Within.pure trivial
  | succ n ih =>
    intro i t m
    exact (getAcc_within a i).bind (fun v _ _ => (putAcc_within r i _).bind (fun _ _ _ => ih _ _ _) (Nat.le_refl _)) (by omega)

theorem transformCopyAcc_within (a : Sl) (op : σ → T → σ × T) (t : σ) : Within m (transformCopyAcc a op t) (transformCopy a op t) (3 * a.len) (fun _ _ => True) :=
  (makeAcc_within a.len a.len).bind (fun r _ _ => (transformCopyLoopAcc_within a op r _ _ _ _).bind (fun _ _ _ => Within.pure trivial) (Nat.le_refl _)) (by omega)

theorem removeCopyLoopAcc_within [GoEq T] (a : Sl) (x : T) : ∀ (n k : Nat) (r : Sl) (m : Mem T), r.len + n ≤ r.cap →
    Within m (removeCopyLoopAcc grow a x n k r) (removeCopyLoop grow a x n k r) (2 * n) (fun _ _ => True) := by
  intro n
  induction n with
  | zero => intro k r m _; exact Within.pure trivial
  | succ n ih =>
    intro k r m hr
    refine (getAcc_within a k).bind (k2 := 1 + 2 * n) (fun v m1 _ => Within.ite (fun _ => ?_) (fun _ => (ih _ _ _ (by omega)).mono (Nat.le_add_left _ _) (fun _ _ h => h))) (by omega)
    exact (appendAcc_room grow r [v] (by simp only [List.length_singleton]; omega)).bind (fun b _ hb => ih _ _ _ (by simp only [List.length_singleton] at hb; omega)) (Nat.le_refl _)

theorem removeCopyAcc_within [GoEq T] (a : Sl) (x : T) : Within m (removeCopyAcc grow a x) (removeCopy grow a x) (3 * a.len) (fun _ _ => True) :=
  (makeAcc_within 0 a.len).bind (fun r _ hr => removeCopyLoopAcc_within a x _ _ _ _ (by omega)) (by omega)

theorem removeIfCopyLoopAcc_within (a : Sl) (cond : σ → T → σ × Bool) : ∀ (n k : Nat) (t : σ) (r : Sl) (m : Mem T), r.len + n ≤ r.cap →
    Within m (removeIfCopyLoopAcc grow a cond n k t r) (removeIfCopyLoop grow a cond n k t r) (2 * n) (fun _ _ => True) := by
  intro n
  induction n with
  | zero => intro k t r m _; exact Within.pure trivial
  | succ n ih =>
    intro k t r m hr
    refine (getAcc_within a k).bind (k2 := 1 + 2 * n) (fun v m1 _ => Within.ite (fun _ => ?_) (fun _ => (ih _ _ _ _ (by omega)).mono (Nat.le_add_left _ _) (fun _ _ h => h))) (by omega)
    exact (appendAcc_room grow r [v] (by simp only [List.length_singleton]; omega)).bind (fun b _ hb => ih _ _ _ _ (by simp only [List.length_singleton] at hb; omega)) (Nat.le_refl _)

theorem removeIfCopyAcc_within (a : Sl) (cond : σ → T → σ × Bool) (t : σ) :
    Within m (removeIfCopyAcc grow a cond t) (removeIfCopy grow a cond t) (3 * a.len) (fun _ _ => True) :=
  (makeAcc_within 0 a.len).bind (fun r _ hr => removeIfCopyLoopAcc_within a cond _ _ _ _ _ (by omega)) (by omega)

theorem reverseCopyLoopAcc_within (a : Sl) : ∀ (n : Nat) (r : Sl) (m : Mem T), r.len + n ≤ r.cap →
    Within m (reverseCopyLoopAcc grow a n r) (reverseCopyLoop grow a n r) (2 * n) (fun _ _ => True) := by
  intro n
  induction n with
  | zero => intro r m _; exact Within.pure trivial
  | succ n ih =>
    intro r m hr
    refine (getAcc_within a n).bind (k2 := 1 + 2 * n) (fun v m1 _ => ?_) (by omega)
    exact (appendAcc_room grow r [v] (by simp only [List.length_singleton]; omega)).bind (fun b _ hb => ih _ _ (by simp only [List.length_singleton] at hb; omega)) (Nat.le_refl _)

theorem reverseCopyAcc_within (a : Sl) : Within m (reverseCopyAcc grow a) (reverseCopy grow a) (3 * a.len) (fun _ _ => True) :=
  (makeAcc_within 0 a.len).bind (fun r _ hr => reverseCopyLoopAcc_within a _ _ _ (by omega)) (by omega)
end

/-! ## `vector.go` -/

theorem onAcc_within {s : VS T} {x : GoM (Mem T × Nat) α} {y : GoM (Mem T) α} {k : Nat} {Q : α → Mem T → Prop} (h : Within s.mem x y k Q) :
    Within s (VS.onAcc x) (VS.on y) k (fun a s' => s'.v = s.v ∧ Q a s'.mem) := by
  obtain ⟨⟨c, L, hc, e, hL, hs⟩, hq⟩ := h
  have hs' : Sees L s (VS.on y) := by
    intro m ht hm
    have := hs m ht hm
    cases ey : y s.mem with
    | ok a m1 =>
      rw [ey] at this
      obtain ⟨m', e', o'⟩ := this
      have e' : y m = .ok a m' := e'
      simp only [VS.on, ey]
      exact ⟨m', by simp only [HasMem.put, e'], o'⟩
    | panic m1 =>
      rw [ey] at this
      obtain ⟨m', e', o'⟩ := this
      have e' : y m = .panic m' := e'
      simp only [VS.on, ey]
      exact ⟨m', by simp only [HasMem.put, e'], o'⟩
    | diverge =>
      rw [ey] at this
      have e' : y m = .diverge := this
      simp only [VS.on, ey]
      show _ = _
      simp only [HasMem.put, e']
  cases ey : y s.mem with
  | ok a m =>
    refine ⟨⟨c, L, hc, fun n => by simp only [VS.onAcc, VS.on, (e n : x (s.mem, n) = _), ey, Res.beside], hL, hs'⟩, fun b s' eb => ?_⟩
    simp only [VS.on, ey] at eb; cases eb; exact ⟨rfl, hq _ _ ey⟩
  | panic m =>
    refine ⟨⟨c, L, hc, fun n => by simp only [VS.onAcc, VS.on, (e n : x (s.mem, n) = _), ey, Res.beside], hL, hs'⟩, fun b s' eb => ?_⟩
    simp only [VS.on, ey] at eb; cases eb
  | diverge =>
    refine ⟨⟨c, L, hc, fun n => by simp only [VS.onAcc, VS.on, (e n : x (s.mem, n) = _), ey, Res.beside], hL, hs'⟩, fun b s' eb => ?_⟩
    simp only [VS.on, ey] at eb; cases eb

theorem recvAcc_within {s : VS T} : Within s VS.recvAcc VS.recv 0 (fun a s' => a = s.v ∧ s' = s) :=
  Within.count _ [] (Nat.le_refl _) (fun m ht _ => ⟨m, rfl, onlyAt_nil ht⟩) s.v s rfl ⟨rfl, rfl⟩

theorem recvAcc_bind {s : VS T} {f : Sl → GoM (VS T × Nat) α} {g : Sl → GoM (VS T) α} {k : Nat} {Q : α → VS T → Prop} (h : Within s (f s.v) (g s.v) k Q) :
    Within s (VS.recvAcc >>= f) (VS.recv >>= g) k Q :=
  Within.bind recvAcc_within (fun a s' ha => by obtain ⟨rfl, rfl⟩ := ha; exact h) (by omega)

theorem assignAcc_within {s : VS T} (v : Sl) : Within s (VS.assignAcc v) (VS.assign v) 0 (fun _ s' => s'.v = v) :=
  Within.count _ [] (Nat.le_refl _) (fun m ht _ => ⟨m, rfl, onlyAt_nil ht⟩) () { s with v := v } rfl rfl

section
variable {s : VS T}

/-- One access to an element of the receiver. -/
theorem atAcc_within (i : Int) : Within s (Vec.atAcc i) (Vec.at i) 1 (fun _ _ => True) :=
  recvAcc_bind ((onAcc_within (getAcc_within s.v i)).mono (Nat.le_refl _) (fun _ _ _ => trivial))

theorem setAcc_within (i : Int) (x : T) : Within s (Vec.setAcc i x) (Vec.set i x) 1 (fun _ _ => True) :=
  recvAcc_bind ((onAcc_within (putAcc_within s.v i x)).mono (Nat.le_refl _) (fun _ _ _ => trivial))

theorem backAcc_within : Within s Vec.backAcc Vec.back 1 (fun _ _ => True) :=
  recvAcc_bind ((onAcc_within (getAcc_within s.v _)).mono (Nat.le_refl _) (fun _ _ _ => trivial))

theorem forEachLoopAcc_within (v : Sl) (cb : σ → T → σ) : ∀ (n i : Nat) (t : σ) (m : Mem T),
    Within m (Vec.forEachLoopAcc v cb n i t) (Vec.forEachLoop v cb n i t) n (fun _ _ => True) := by
  intro n
  induction n with
  | zero => intro i t m; exact Within.pure trivial
  | succ n ih => intro i t m; exact (getAcc_within v i).bind (fun e _ _ => ih _ _ _) (by omega)

theorem forEachIfLoopAcc_within (v : Sl) (cb : σ → T → σ × Bool) : ∀ (n i : Nat) (t : σ) (m : Mem T),
    Within m (Vec.forEachIfLoopAcc v cb n i t) (Vec.forEachIfLoop v cb n i t) n (fun _ _ => True) := by
  intro n
  induction n with
  | zero => intro i t m; exact Within.pure trivial
  | succ n ih =>
    intro i t m
    exact (getAcc_within v i).bind (k2 := n) (fun e _ _ => Within.ite (fun _ => (Within.pure trivial).mono (Nat.zero_le _) (fun _ _ h => h)) (fun _ => ih _ _ _)) (by omega)

theorem forEachMutableLoopAcc_within (v : Sl) (cb : σ → T → σ × T) : ∀ (n i : Nat) (t : σ) (m : Mem T),
    Within m (Vec.forEachMutableLoopAcc v cb n i t) (Vec.forEachMutableLoop v cb n i t) (2 * n) (fun _ _ => True) := by
  intro n
  induction n with
  | zero => intro i t m; exact Within.pure trivial
  | succ n ih => intro i t m; exact (getAcc_within v i).bind (fun e _ _ => (putAcc_within v i _).bind (fun _ _ _ => ih _ _ _) (Nat.le_refl _)) (by omega)

theorem forEachMutableIfLoopAcc_within (v : Sl) (cb : σ → T → σ × T × Bool) : ∀ (n i : Nat) (t : σ) (m : Mem T),
    Within m (Vec.forEachMutableIfLoopAcc v cb n i t) (Vec.forEachMutableIfLoop v cb n i t) (2 * n) (fun _ _ => True) := by
  intro n
  induction n with
  | zero => intro i t m; exact Within.pure trivial
  | succ n ih =>
    intro i t m
    exact (getAcc_within v i).bind (fun e _ _ => (putAcc_within v i _).bind (k2 := 2 * n)
      (fun _ _ _ => Within.ite (fun _ => (Within.pure trivial).mono (Nat.zero_le _) (fun _ _ h => h)) (fun _ => ih _ _ _)) (Nat.le_refl _)) (by omega)

theorem forEachAcc_within (cb : σ → T → σ) (t : σ) : Within s (Vec.forEachAcc cb t) (Vec.forEach cb t) s.v.len (fun _ _ => True) :=
  recvAcc_bind ((onAcc_within (forEachLoopAcc_within s.v cb _ _ _ _)).mono (Nat.le_refl _) (fun _ _ _ => trivial))

theorem forEachIfAcc_within (cb : σ → T → σ × Bool) (t : σ) : Within s (Vec.forEachIfAcc cb t) (Vec.forEachIf cb t) s.v.len (fun _ _ => True) :=
  recvAcc_bind ((onAcc_within (forEachIfLoopAcc_within s.v cb _ _ _ _)).mono (Nat.le_refl _) (fun _ _ _ => trivial))

theorem forEachMutableAcc_within (cb : σ → T → σ × T) (t : σ) : Within s (Vec.forEachMutableAcc cb t) (Vec.forEachMutable cb t) (2 * s.v.len) (fun _ _ => True) :=
  recvAcc_bind ((onAcc_within (forEachMutableLoopAcc_within s.v cb _ _ _ _)).mono (Nat.le_refl _) (fun _ _ _ => trivial))

theorem forEachMutableIfAcc_within (cb : σ → T → σ × T × Bool) (t : σ) : Within s (Vec.forEachMutableIfAcc cb t) (Vec.forEachMutableIf cb t) (2 * s.v.len) (fun _ _ => True) :=
  recvAcc_bind ((onAcc_within (forEachMutableIfLoopAcc_within s.v cb _ _ _ _)).mono (Nat.le_refl _) (fun _ _ _ => trivial))

variable [GoZero T] {grow : Nat → Nat → Nat}

theorem clearVAcc_within : Within s Vec.clearAcc Vec.clear s.v.len (fun _ _ => True) :=
  recvAcc_bind ((onAcc_within (clearAcc_within s.v)).bind (fun _ _ _ => (onAcc_within (sliceAcc_within s.v 0 0)).bind
    (fun t _ _ => (assignAcc_within t).mono (Nat.le_refl _) (fun _ _ _ => trivial)) (Nat.le_refl _)) (Nat.le_refl _))

theorem reserveAcc_within (l : Int) : Within s (Vec.reserveAcc l) (Vec.reserve l) (l.toNat + 2 * s.v.len) (fun _ _ => True) := by
  refine recvAcc_bind (Within.ite (fun _ => ?_) (fun _ => (Within.pure trivial).mono (Nat.zero_le _) (fun _ _ h => h)))
  exact (onAcc_within (makeAcc_within _ _)).bind (k2 := 2 * s.v.len) (fun t _ _ => (onAcc_within (copyAcc_within t s.v)).bind
    (fun _ _ _ => (assignAcc_within t).mono (Nat.le_refl _) (fun _ _ _ => trivial)) (by omega)) (by omega)

theorem shrinkAcc_within {K : Nat} (hm : Modest grow K) : Within s (Vec.shrinkAcc grow) (Vec.shrink grow) (3 * s.v.len + K) (fun _ _ => True) := by
  refine recvAcc_bind (Within.ite (fun _ => ?_) (fun _ => (Within.pure trivial).mono (Nat.zero_le _) (fun _ _ h => h)))
  refine (onAcc_within (loadAcc_within s.v)).bind (k2 := 2 * s.v.len + K) (fun ys _ hy => ?_) (by omega)
  refine (onAcc_within (appendAcc_within grow Sl.empty ys)).bind (fun t _ _ => (assignAcc_within t).mono (Nat.le_refl _) (fun _ _ _ => trivial)) ?_
  have := hm Sl.empty.cap (Sl.empty.len + ys.length)
  have l0 : Sl.empty.len = 0 := rfl
  have c0 : Sl.empty.cap = 0 := rfl
  by_cases h0 : ys.length = 0
  · rw [if_pos (by omega)]; omega
  · rw [if_neg (by omega)]; have := this (by omega); omega

theorem pushBackAcc_room (x : T) (h : s.v.len < s.v.cap) : Within s (Vec.pushBackAcc grow x) (Vec.pushBack grow x) 1 (fun _ _ => True) :=
  recvAcc_bind ((onAcc_within (appendAcc_room grow s.v [x] (by simp only [List.length_singleton]; omega))).bind
    (fun t _ _ => (assignAcc_within t).mono (Nat.le_refl _) (fun _ _ _ => trivial)) (Nat.le_refl _))

theorem pushBackAcc_within {K : Nat} (hm : Modest grow K) (x : T) : Within s (Vec.pushBackAcc grow x) (Vec.pushBack grow x) (3 * s.v.len + 2 + K) (fun _ _ => True) := by
  refine recvAcc_bind ((onAcc_within (appendAcc_within grow s.v [x])).bind (fun t _ _ => (assignAcc_within t).mono (Nat.le_refl _) (fun _ _ _ => trivial)) ?_)
  have := hm s.v.cap (s.v.len + 1)
  simp only [List.length_singleton]
  split
  · omega
  · have := this (by omega); omega

theorem pushAllAcc_within (hg : Geometric grow) {K : Nat} (hm : Modest grow K) (xs : List T) : ∀ (s : VS T), s.v.len ≤ s.v.cap →
    Within s (Vec.pushAllAcc grow xs) (Vec.pushAll grow xs) (pushCost K s.v.len s.v.cap xs.length) (fun _ _ => True) := by
  induction xs with
  | nil => intro s _; exact (Within.pure trivial).mono (Nat.zero_le _) (fun _ _ h => h)
  | cons x xs ih =>
    intro s hs
    obtain ⟨k, hk1, hk⟩ := appendAcc_paid (m := s.mem) hg hm s.v x xs.length hs
    have hp : Within s (Vec.pushBackAcc grow x) (Vec.pushBack grow x) k
        (fun _ s' => s'.v.len ≤ s'.v.cap ∧ k + pushCost K s'.v.len s'.v.cap xs.length ≤ pushCost K s.v.len s.v.cap (xs.length + 1)) :=
      recvAcc_bind ((onAcc_within hk).bind (fun t _ ht => (assignAcc_within t).mono (Nat.le_refl _) (fun _ s' e => by rw [e]; exact ht.2.2)) (Nat.le_refl _))
    exact hp.bind (k2 := pushCost K s.v.len s.v.cap (xs.length + 1) - k) (fun _ s' h' => (ih s' h'.1).mono (by omega) (fun _ _ h => h))
      (by simp only [List.length_cons]; omega)

theorem popBackAcc_within : Within s Vec.popBackAcc Vec.popBack 2 (fun _ _ => True) :=
  recvAcc_bind ((onAcc_within (getAcc_within s.v _)).bind (fun _ _ _ => (onAcc_within (putAcc_within s.v _ _)).bind (fun _ _ _ => (onAcc_within (sliceAcc_within s.v _ _)).bind
    (fun t _ _ => (assignAcc_within t).bind (fun _ _ _ => Within.pure trivial) (Nat.le_refl _)) (Nat.le_refl _)) (Nat.le_refl _)) (Nat.le_refl _))

omit [GoZero T] in
theorem isEmptyAcc_within : Within s (GoM.count (fun _ => 0) Vec.isEmpty) Vec.isEmpty 0 (fun _ _ => True) :=
  Within.count _ [] (Nat.le_refl _) (fun m ht _ => ⟨m, rfl, onlyAt_nil ht⟩) (s.v.len == 0) s rfl trivial

theorem tryPopBackAcc_within : Within s Vec.tryPopBackAcc Vec.tryPopBack 2 (fun _ _ => True) :=
  isEmptyAcc_within.bind (k2 := 2) (fun _ _ _ => Within.ite (fun _ => (Within.pure trivial).mono (Nat.zero_le _) (fun _ _ h => h))
    (fun _ => popBackAcc_within.bind (fun _ _ _ => Within.pure trivial) (Nat.le_refl _))) (Nat.le_refl _)

theorem appendVAcc_within {K : Nat} (hm : Modest grow K) (x : Sl) :
    Within s (Vec.appendAcc grow x) (Vec.append grow x) (if s.v.len + x.len ≤ s.v.cap then 2 * x.len else 3 * (s.v.len + x.len) + K) (fun _ _ => True) := by
  refine recvAcc_bind ((onAcc_within (loadAcc_within x)).bind (k2 := if s.v.len + x.len ≤ s.v.cap then x.len else 3 * s.v.len + 2 * x.len + K) (fun ys _ hy => ?_) (by split <;> omega))
  refine (onAcc_within (appendAcc_within grow s.v ys)).bind (fun t _ _ => (assignAcc_within t).mono (Nat.le_refl _) (fun _ _ _ => trivial)) ?_
  have := hm s.v.cap (s.v.len + x.len)
  rw [hy.2]
  split
  · omega
  · have := this (by omega); omega

theorem insertAcc_within (i : Int) (x : Sl) : Within s (Vec.insertAcc i x) (Vec.insert i x)
    (if s.v.len + x.len ≤ s.v.cap then 2 * (s.v.len - i).toNat + 2 * x.len else 3 * (s.v.len + x.len)) (fun _ _ => True) := by
  refine recvAcc_bind ?_
  by_cases h : s.v.len + x.len ≤ s.v.cap
  · simp only [if_pos h]
    refine (onAcc_within (sliceAcc_within s.v 0 _)).bind (k2 := 2 * (s.v.len - i).toNat + 2 * x.len) (fun s2 _ h2 => ?_) (by omega)
    refine (onAcc_within (sliceAcc_within s2 _ _)).bind (k2 := 2 * (s.v.len - i).toNat + 2 * x.len) (fun d _ hd => ?_) (by omega)
    refine (onAcc_within (sliceAcc_within s.v i _)).bind (k2 := 2 * (s.v.len - i).toNat + 2 * x.len) (fun t _ ht => ?_) (by omega)
    refine (onAcc_within (copyAcc_within d t)).bind (k2 := 2 * x.len) (fun _ _ _ => ?_) (by omega)
    refine (onAcc_within (sliceAcc_within s2 i _)).bind (k2 := 2 * x.len) (fun d _ hd => ?_) (by omega)
    exact (onAcc_within (copyAcc_within d x)).bind (fun _ _ _ => (assignAcc_within s2).mono (Nat.le_refl _) (fun _ _ _ => trivial)) (by omega)
  · simp only [if_neg h]
    refine (onAcc_within (makeAcc_within _ _)).bind (k2 := 2 * (s.v.len + x.len)) (fun s2 _ h2 => ?_) (by omega)
    refine (onAcc_within (sliceAcc_within s.v 0 i)).bind (k2 := 2 * (s.v.len + x.len)) (fun t _ ht => ?_) (by omega)
    refine (onAcc_within (copyAcc_within s2 t)).bind (k2 := 2 * (s.v.len + x.len) - 2 * i.toNat) (fun _ _ _ => ?_) (by omega)
    refine (onAcc_within (sliceAcc_within s2 i _)).bind (k2 := 2 * (s.v.len + x.len) - 2 * i.toNat) (fun d _ hd => ?_) (by omega)
    refine (onAcc_within (copyAcc_within d x)).bind (k2 := 2 * (s.v.len - i).toNat) (fun _ _ _ => ?_) (by omega)
    refine (onAcc_within (sliceAcc_within s2 _ _)).bind (k2 := 2 * (s.v.len - i).toNat) (fun d _ hd => ?_) (by omega)
    refine (onAcc_within (sliceAcc_within s.v i _)).bind (k2 := 2 * (s.v.len - i).toNat) (fun t _ ht => ?_) (by omega)
    exact (onAcc_within (copyAcc_within d t)).bind (fun _ _ _ => (assignAcc_within s2).mono (Nat.le_refl _) (fun _ _ _ => trivial)) (by omega)

theorem removeRangeAcc_within (hs : s.v.len ≤ s.v.cap) {i j : Int} (hij : i ≤ j) :
    Within s (Vec.removeRangeAcc grow i j) (Vec.removeRange grow i j) (2 * (s.v.len - j).toNat + (j - i).toNat) (fun _ _ => True) := by
  refine recvAcc_bind ?_
  refine (onAcc_within (sliceAcc_within s.v 0 i)).bind (k2 := 2 * (s.v.len - j).toNat + (j - i).toNat) (fun a _ ha => ?_) (by omega)
  refine (onAcc_within (sliceAcc_within s.v j _)).bind (k2 := 2 * (s.v.len - j).toNat + (j - i).toNat) (fun b _ hb => ?_) (by omega)
  refine (onAcc_within (loadAcc_within b)).bind (k2 := (s.v.len - j).toNat + (j - i).toNat) (fun ys _ hy => ?_) (by omega)
  refine (onAcc_within (appendAcc_room grow a ys (by omega))).bind (k2 := (j - i).toNat) (fun t _ ht => ?_) (by omega)
  refine (assignAcc_within t).bind (k2 := (j - i).toNat) (fun _ _ _ => ?_) (by omega)
  refine (onAcc_within (sliceAcc_within s.v _ _)).bind (k2 := (j - i).toNat) (fun r _ hr => ?_) (by omega)
  exact (onAcc_within (clearAcc_within r)).mono (by omega) (fun _ _ _ => trivial)

theorem removeIfVAcc_within (cond : σ → T → σ × Bool) (t : σ) : Within s (Vec.removeIfAcc cond t) (Vec.removeIf cond t) (3 * s.v.len) (fun _ _ => True) := by
  refine recvAcc_bind ((onAcc_within (removeIfAcc_within s.v cond t)).bind (k2 := s.v.len) (fun r _ _ => ?_) (by omega))
  refine (assignAcc_within r.2).bind (k2 := s.v.len) (fun _ _ _ => ?_) (by omega)
  refine (onAcc_within (sliceAcc_within s.v _ _)).bind (k2 := s.v.len) (fun b _ hb => ?_) (by omega)
  exact (onAcc_within (clearAcc_within b)).bind (fun _ _ _ => Within.pure trivial) (by omega)
end

end Stl4go
