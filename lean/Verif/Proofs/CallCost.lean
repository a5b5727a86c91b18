import Verif.Spec.CallCost
import Verif.Spec.HeapAny
import Verif.Spec.CallbackSearch
/-! # Measures along the calls of heap functions and searches -/
namespace Stl4go
variable {T τ ρ α σ : Type}

theorem RaisesBy.mono {μ : σ → Nat} {k k' : Nat} {s : σ} {r : Res σ α} (h : RaisesBy μ k s r) (hk : k ≤ k') : RaisesBy μ k' s r := by
  cases r with
  | ok a s' => exact Nat.le_trans (show μ s' ≤ μ s + k from h) (by omega)
  | panic s' => exact Nat.le_trans (show μ s' ≤ μ s + k from h) (by omega)
  | diverge => trivial

theorem Acts.raises {less : LessA T τ} {a : Sl} {μ : τ → Nat} {c : Nat} (hl : ∀ x y s, RaisesBy (fun s : HS T τ => μ s.st) c s (less x y s))
    {n : Nat} {s s' : HS T τ} (h : Acts less a n s s') : μ s'.st ≤ μ s.st + n * c := by
  induction h with
  | stop s => simp
  | @call n s s1 s2 b i j hi hj e r ih =>
    have h1 : μ s1.st ≤ μ s.st + c := by have := hl (s.mem.cell (a.off + i)) (s.mem.cell (a.off + j)) s; rw [e] at this; exact this
    rw [Nat.succ_mul]; omega
  | swap i j hi hj r ih => exact ih

theorem HeapRuns.raises {less : LessA T τ} {a : Sl} {μ : τ → Nat} {c : Nat} (hl : ∀ x y s, RaisesBy (fun s : HS T τ => μ s.st) c s (less x y s))
    {k : Nat} {s : HS T τ} {Q : α → HS T τ → Prop} {r : Res (HS T τ) α} (h : HeapRuns less a k s Q r) : RaisesBy (fun s => μ s.st) (k * c) s r := by
  cases r with
  | ok v s' =>
    obtain ⟨_, n, hn, h⟩ := h
    have := h.raises hl
    have := Nat.mul_le_mul_right c hn
    show μ s'.st ≤ μ s.st + k * c
    omega
  | panic s' =>
    obtain ⟨n, s1, i, j, hn, _, _, h, e⟩ := h
    have h1 := h.raises hl
    have h2 := hl (s1.mem.cell (a.off + i)) (s1.mem.cell (a.off + j)) s1
    rw [e] at h2
    have h2 : μ s'.st ≤ μ s1.st + c := h2
    have := Nat.mul_le_mul_right c (Nat.succ_le_of_lt hn)
    rw [Nat.succ_mul] at this
    show μ s'.st ≤ μ s.st + k * c
    omega
  | diverge => trivial

theorem cutTo_raises {μ : τ → Nat} {k n : Nat} {h : Sl} {s : HS T τ} {r : Res (HS T τ) Unit} (hr : RaisesBy (fun s => μ s.st) k s r) :
    RaisesBy (fun s => μ s.st) k s (cutTo h n r) := by
  cases r <;> exact hr

theorem Asked.raises {q : Nat → GoM σ Bool} {μ : σ → Nat} {c : Nat} (hq : ∀ j s, RaisesBy μ c s (q j s)) {s s' : σ} {tr : List (Nat × Bool)}
    (h : Asked q s tr s') : μ s' ≤ μ s + tr.length * c := by
  induction h with
  | none s => simp
  | @next s s1 s2 j b tr e r ih =>
    have h1 : μ s1 ≤ μ s + c := by have := hq j s; rw [e] at this; exact this
    rw [List.length_cons, Nat.succ_mul]; omega

theorem SearchOk.raises {q : Nat → GoM σ Bool} {μ : σ → Nat} {c : Nat} (hq : ∀ j s, RaisesBy μ c s (q j s)) {n : Nat} {s : σ} {r : Res σ Nat}
    (h : SearchOk q 0 n s r) : RaisesBy μ ((if n = 0 then 0 else Nat.log2 n + 1) * c) s r := by
  cases r with
  | ok p s' =>
    obtain ⟨tr, ha, hn, _⟩ := h
    have h1 := ha.raises hq
    have h2 := hn.2.2
    rw [List.length_map, Nat.sub_zero] at h2
    have := Nat.mul_le_mul_right c h2
    show μ s' ≤ μ s + _
    omega
  | panic s' =>
    obtain ⟨tr, s1, j, ha, e, hn⟩ := h
    have h1 := ha.raises hq
    have h3 := hq j s1
    rw [e] at h3
    have h3 : μ s' ≤ μ s1 + c := h3
    have h2 := hn.2.2
    rw [List.length_append, List.length_map, List.length_singleton, Nat.sub_zero] at h2
    have := Nat.mul_le_mul_right c h2
    rw [Nat.succ_mul] at this
    show μ s' ≤ μ s + _
    omega
  | diverge => trivial

end Stl4go
