import Verif.Proofs.TransformFill
import Verif.Spec.Shuffle
/-!
# Helper lemmas for C154
-/
namespace Stl4go
variable {T U : Type}

/-- What swapping two elements makes of a list. -/
def swapL (l : List T) (i j : Nat) : List T :=
  if h : i < l.length ∧ j < l.length then (l.set i (l[j]'h.2)).set j (l[i]'h.1) else l

/-- What swapping pairs of elements makes of a list. -/
def shuffleL : List T → List (Nat × Nat) → List T
  | l, [] => l
  | l, d :: ds => shuffleL (swapL l d.1 d.2) ds

@[simp] theorem swapL_length (l : List T) (i j : Nat) : (swapL l i j).length = l.length := by
  unfold swapL
  split <;> simp

theorem swapL_perm (l : List T) (i j : Nat) : (swapL l i j).Perm l := by
  unfold swapL
  split
  · exact set_set_perm l i j _ _
  · exact .refl _

theorem swapL_map (f : T → U) (l : List T) (i j : Nat) : swapL (l.map f) i j = (swapL l i j).map f := by
  unfold swapL
  by_cases h : i < l.length ∧ j < l.length
  · rw [dif_pos (by simpa using h), dif_pos h]
    simp [List.map_set]
  · rw [dif_neg (by simpa using h), dif_neg h]

theorem shuffleL_map (f : T → U) : ∀ (ds : List (Nat × Nat)) (l : List T), shuffleL (l.map f) ds = (shuffleL l ds).map f
  | [], _ => rfl
  | d :: ds, l => by rw [shuffleL, shuffleL, swapL_map, shuffleL_map f ds]

theorem shuffleL_perm : ∀ (ds : List (Nat × Nat)) (l : List T), (shuffleL l ds).Perm l
  | [], _ => .refl _
  | d :: ds, l => (shuffleL_perm ds _).trans (swapL_perm l d.1 d.2)

theorem shuffle_run (a : Sl) (m : Mem T) : ∀ (ds : List (Nat × Nat)) (xs : List T), xs.length = a.len →
    (∀ d ∈ ds, d.1 < a.len ∧ d.2 < a.len) → shuffle a ds (m.write a.off xs) = .ok () (m.write a.off (shuffleL xs ds))
  | [], _, _, _ => rfl
  | (i, j) :: ds, xs, hl, hd => by
    have h0 := hd (i, j) List.mem_cons_self
    simp only at h0
    simp only [shuffle, GoM.bind_def]
    rw [swapAt_eq a m xs hl i j (by omega) (by omega)]
    have h1 : swapL xs i j = (xs.set i (xs[j]'(by omega))).set j (xs[i]'(by omega)) := dif_pos ⟨by omega, by omega⟩
    rw [shuffleL, h1]
    exact shuffle_run a m ds _ (by simpa using hl) (fun d h => hd d (List.mem_cons_of_mem _ h))

theorem swapL_append (l suf : List T) (i j : Nat) (hi : i < l.length) (hj : j < l.length) :
    swapL (l ++ suf) i j = swapL l i j ++ suf := by
  have h1 : i < (l ++ suf).length ∧ j < (l ++ suf).length := by simp; omega
  rw [swapL, swapL, dif_pos h1, dif_pos ⟨hi, hj⟩, List.getElem_append_left hj, List.getElem_append_left hi,
    List.set_append_left _ _ hi, List.set_append_left _ _ (by simpa using hj)]

theorem shuffleL_append (suf : List T) : ∀ (ds : List (Nat × Nat)) (l : List T), (∀ d ∈ ds, d.1 < l.length ∧ d.2 < l.length) →
    shuffleL (l ++ suf) ds = shuffleL l ds ++ suf
  | [], _, _ => rfl
  | d :: ds, l, h => by
    have h0 := h d List.mem_cons_self
    rw [shuffleL, shuffleL, swapL_append l suf _ _ h0.1 h0.2]
    exact shuffleL_append suf ds _ (fun e he => by rw [swapL_length]; exact h e (List.mem_cons_of_mem _ he))

theorem fyPairs_lt : ∀ (n : Nat) (js : List Nat), FYDraws n js → ∀ d ∈ fyPairs n js, d.1 < n ∧ d.2 < n
  | 0, [], _, d, hd => by simp [fyPairs] at hd
  | 1, [], _, d, hd => by simp [fyPairs] at hd
  | n + 2, j :: js, h, d, hd => by
    rw [fyPairs, List.mem_cons] at hd
    rcases hd with rfl | hd
    · exact ⟨by simp, h.1⟩
    · have := fyPairs_lt (n + 1) js h.2 d hd
      omega

/-- The first swap puts one element in its final place. -/
theorem swapL_last (l : List T) (z : T) (j : Nat) (hj : j < l.length + 1) :
    swapL (l ++ [z]) l.length j = l.set j z ++ [(l ++ [z])[j]'(by simp; omega)] := by
  have h1 : l.length < (l ++ [z]).length ∧ j < (l ++ [z]).length := by simp; omega
  rw [swapL, dif_pos h1]
  have hz : (l ++ [z])[l.length]'h1.1 = z := by simp
  rw [hz]
  rcases Nat.lt_or_ge j l.length with hlt | hge
  · generalize (l ++ [z])[j]'h1.2 = w
    rw [List.set_append_right _ _ (Nat.le_refl _), Nat.sub_self, List.set_append_left _ _ hlt]
    rfl
  · have : j = l.length := by omega
    subst this
    simp [List.set_eq_of_length_le]

theorem fy_unique : ∀ (n : Nat) (xs ys : List T), xs.length = n → xs.Nodup → ys.Perm xs →
    ∃ js, (FYDraws n js ∧ shuffleL xs (fyPairs n js) = ys) ∧ ∀ ks, FYDraws n ks → shuffleL xs (fyPairs n ks) = ys → ks = js
  | 0, xs, ys, hl, _, hp => by
    cases List.length_eq_zero_iff.mp hl
    cases List.perm_nil.mp hp
    refine ⟨[], ⟨trivial, rfl⟩, fun ks hk _ => ?_⟩
    cases ks with
    | nil => rfl
    | cons k ks => exact absurd hk id
  | 1, xs, ys, hl, _, hp => by
    obtain ⟨x, rfl⟩ := List.length_eq_one_iff.mp hl
    cases List.perm_singleton.mp hp
    refine ⟨[], ⟨trivial, rfl⟩, fun ks hk _ => ?_⟩
    cases ks with
    | nil => rfl
    | cons k ks => exact absurd hk id
  | n + 2, xs, ys, hl, hn, hp => by
    obtain ⟨l, z, rfl⟩ : ∃ l z, xs = l ++ [z] :=
      ⟨xs.dropLast, xs.getLast (by intro h; simp [h] at hl), (List.dropLast_concat_getLast _).symm⟩
    have hyl := hp.length_eq.trans hl
    obtain ⟨k, w, rfl⟩ : ∃ k w, ys = k ++ [w] :=
      ⟨ys.dropLast, ys.getLast (by intro h; simp [h] at hyl), (List.dropLast_concat_getLast _).symm⟩
    have hll : l.length = n + 1 := by simpa using hl
    have hkl : k.length = n + 1 := by simpa using hyl
    have hw : w ∈ l ++ [z] := hp.subset (by simp)
    obtain ⟨j, hj, hjw⟩ := List.getElem_of_mem hw
    have hj2 : j < l.length + 1 := by simpa using hj
    have step : ∀ i (hi : i < l.length + 1) (js : List Nat), FYDraws (n + 1) js →
        shuffleL (l ++ [z]) (fyPairs (n + 2) (i :: js))
          = shuffleL (l.set i z) (fyPairs (n + 1) js) ++ [(l ++ [z])[i]'(by simp; omega)] := by
      intro i hi js hjs
      rw [fyPairs, shuffleL]
      show shuffleL (swapL (l ++ [z]) (n + 1) i) (fyPairs (n + 1) js) = _
      have h0 : swapL (l ++ [z]) (n + 1) i = swapL (l ++ [z]) l.length i := by rw [hll]
      rw [h0, swapL_last l z i hi]
      exact shuffleL_append _ _ _ (fun d hd => by
        have := fyPairs_lt (n + 1) js hjs d hd
        rw [List.length_set, hll]
        exact this)
    have hsp : (l.set j z ++ [w]).Perm (l ++ [z]) := by
      have h1 := swapL_perm (l ++ [z]) l.length j
      rw [swapL_last l z j hj2, hjw] at h1
      exact h1
    have hkp : k.Perm (l.set j z) := by
      have h1 : (k ++ [w]).Perm (l.set j z ++ [w]) := hp.trans hsp.symm
      exact (List.perm_append_right_iff [w]).mp h1
    have hnd : (l.set j z).Nodup := (List.nodup_append.mp (hsp.nodup_iff.mpr hn)).1
    obtain ⟨js, ⟨hjs, hres⟩, huniq⟩ := fy_unique (n + 1) (l.set j z) k (by simpa using hll) hnd hkp
    refine ⟨j :: js, ⟨⟨by omega, hjs⟩, ?_⟩, fun ks hk hr => ?_⟩
    · rw [step j hj2 js hjs, hres, hjw]
    · cases ks with
      | nil => exact absurd hk id
      | cons i is =>
        have hi : i < l.length + 1 := by have := hk.1; omega
        rw [step i hi is hk.2] at hr
        have h2 := List.append_inj hr (by rw [(shuffleL_perm _ _).length_eq, List.length_set, hll, hkl])
        have h3 : (l ++ [z])[i]'(by simp; omega) = (l ++ [z])[j] := by
          rw [hjw]
          exact (List.cons.inj h2.2).1
        have h4 : i = j := by
          have hn' := List.pairwise_iff_getElem.mp hn
          have hi2 : i < (l ++ [z]).length := by simp; omega
          rcases Nat.lt_trichotomy i j with h | h | h
          · exact absurd h3 (hn' i j hi2 hj h)
          · exact h
          · exact absurd h3.symm (hn' j i hj hi2 h)
        subst h4
        rw [huniq is hk.2 h2.1]

theorem mem_allDraws : ∀ (n : Nat) (js : List Nat), js ∈ allDraws n ↔ FYDraws n js
  | 0, [] => by simp [allDraws, FYDraws]
  | 0, j :: js => by simp [allDraws, FYDraws]
  | 1, [] => by simp [allDraws, FYDraws]
  | 1, j :: js => by simp [allDraws, FYDraws]
  | n + 2, [] => by simp [allDraws, FYDraws]
  | n + 2, j :: js => by
    simp [allDraws, FYDraws, mem_allDraws (n + 1)]

theorem allDraws_length : ∀ n : Nat, (allDraws n).length = fac n
  | 0 => rfl
  | 1 => rfl
  | n + 2 => by
    have h : ∀ l : List Nat, (l.flatMap (fun j => (allDraws (n + 1)).map (j :: ·))).length = l.length * fac (n + 1) := by
      intro l
      induction l with
      | nil => simp
      | cons x l ih => rw [List.flatMap_cons, List.length_append, ih, List.length_map, allDraws_length (n + 1), List.length_cons,
          Nat.add_mul, Nat.one_mul, Nat.add_comm]
    rw [allDraws, h, List.length_range]
    rfl

theorem allDraws_nodup : ∀ n : Nat, (allDraws n).Nodup
  | 0 => by simp [allDraws]
  | 1 => by simp [allDraws]
  | n + 2 => by
    have h : ∀ l : List Nat, l.Nodup → (l.flatMap (fun j => (allDraws (n + 1)).map (j :: ·))).Nodup := by
      intro l
      induction l with
      | nil => intro _; simp
      | cons x l ih =>
        intro hn
        rw [List.nodup_cons] at hn
        rw [List.flatMap_cons, List.nodup_append]
        refine ⟨(List.pairwise_map.mpr ((allDraws_nodup (n + 1)).imp (fun hne h => hne (List.cons.inj h).2))), ih hn.2, ?_⟩
        intro a ha b hb hab
        obtain ⟨a', _, rfl⟩ := List.mem_map.mp ha
        obtain ⟨y, hy, hb'⟩ := List.mem_flatMap.mp hb
        obtain ⟨b', _, rfl⟩ := List.mem_map.mp hb'
        have := (List.cons.inj hab).1
        subst this
        exact hn.1 hy
    rw [allDraws]
    exact h _ List.nodup_range

end Stl4go
