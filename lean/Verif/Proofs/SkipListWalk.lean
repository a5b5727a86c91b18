import Verif.Proofs.SkipListWeak
import Verif.Proofs.SkipListCallback
/-! # SkipList callbacks: which entries the loop visits -/
namespace Stl4go
variable {K V α β σ : Type} {less : K → K → Bool}

/-- Operations that are not on the map change no keys. -/
theorem SCSpec.still (s : SCSpec K V) {op : SCOp K V} (h : ∀ r o, op ≠ .map r o) :
    (s.step less op).2.map.map (·.1) = s.map.map (·.1) ∧
    ∀ i : Nat, ((s.step less op).2.removed[i]?).map (·.1) = (s.removed[i]?).map (·.1) := by
  cases op with
  | map r o => exact absurd rfl (h r o)
  | write p v =>
    simp only [SCSpec.step]
    cases s.ptrs p with
    | none => exact ⟨rfl, fun _ => rfl⟩
    | some d => exact ⟨(s.assign_keys (less := less) v d).1, (s.assign_keys (less := less) v d).2.1⟩
  | key c => simp only [SCSpec.step]; split <;> exact ⟨rfl, fun _ => rfl⟩
  | value c => simp only [SCSpec.step]; split <;> exact ⟨rfl, fun _ => rfl⟩
  | next c => simp only [SCSpec.step]; split <;> exact ⟨rfl, fun _ => rfl⟩
  | pointer p c => simp only [SCSpec.step]; split <;> exact ⟨rfl, fun _ => rfl⟩
  | read c => simp only [SCSpec.step]; split <;> exact ⟨rfl, fun _ => rfl⟩
  | _ => exact ⟨rfl, fun _ => rfl⟩

structure WOk (less : K → K → Bool) (x : SWalk K V) : Prop where
  spec : SOk less x.spec
  cur : CurOk less x.spec.map x.spec.removed x.cur

/-- The keys ahead of the loop. -/
def SWalk.ahead (x : SWalk K V) : List K := SCSpec.ahead x.spec.removed x.cur

theorem WOk.head (hw : StrictWeak less) {x : SWalk K V} (h : WOk less x) : (x.entry less).map (·.1) = x.ahead.head? :=
  h.cur.key hw h.spec.sorted

/-- What a piece of the callback that only calls methods in `ok` does to the loop. -/
structure WRel (less : K → K → Bool) (ok : SCOp K V → Bool) (x y : SWalk K V) : Prop where
  wok : WOk less y
  more : ∃ ext, y.ahead = x.ahead ++ ext
  room : (∀ op, ok op = true → op.isInsert = false) → SCSpec.room less y.spec.map y.cur ≤ SCSpec.room less x.spec.map x.cur
  keep : ∀ q, (∀ op, ok op = true → op.removesKey less q = false) → (SMap.find less q x.spec.map).isSome = true →
    (SMap.find less q y.spec.map).isSome = true ∧ (x.cur.Before less q → y.cur.Before less q)

variable {ok : SCOp K V → Bool} {x y z : SWalk K V}

theorem WRel.refl (h : WOk less x) : WRel less ok x x := ⟨h, ⟨[], by simp⟩, fun _ => Nat.le_refl _, fun _ _ h => ⟨h, id⟩⟩

theorem WRel.trans (a : WRel less ok x y) (b : WRel less ok y z) : WRel less ok x z := by
  obtain ⟨e1, h1⟩ := a.more
  obtain ⟨e2, h2⟩ := b.more
  exact ⟨b.wok, ⟨e1 ++ e2, by rw [h2, h1, List.append_assoc]⟩, fun h => Nat.le_trans (b.room h) (a.room h), fun q hq hm =>
    ⟨(b.keep q hq (a.keep q hq hm).1).1, fun hb => (b.keep q hq (a.keep q hq hm).1).2 ((a.keep q hq hm).2 hb)⟩⟩

theorem find_congr (hw : StrictWeak less) {m m' : List (K × V)} (hs : SMap.Sorted less m) (hm : m'.map (·.1) = m.map (·.1)) {q : K}
    (h : (SMap.find less q m).isSome = true) : (SMap.find less q m').isSome = true := by
  obtain ⟨q', v, h1, h2⟩ := sameKey_find hw hs h
  have : q' ∈ m'.map (·.1) := by rw [hm]; exact List.mem_map.2 ⟨_, h1, rfl⟩
  obtain ⟨e, he, rfl⟩ := List.mem_map.1 this
  obtain ⟨G, H, S, sp⟩ := SSplit.exists hw q m' (SMap.sorted_congr hm hs)
  rw [SMap.find_split sp]
  rw [sp.eq] at he
  simp only [List.mem_append] at he
  rcases he with h' | h' | h'
  · have := sameKey_go sp h'; rw [h2] at this; cases this
  · cases H with
    | nil => simp at h'
    | cons => rfl
  · have := sameKey_stop sp h'; rw [h2] at this; cases this

/-- A change of values only. -/
theorem WRel.vals (hw : StrictWeak less) (h : WOk less x) {s : SCSpec K V} (hs : SOk less s) (hm : s.map.map (·.1) = x.spec.map.map (·.1))
    (hr : ∀ i : Nat, (s.removed[i]?).map (·.1) = (x.spec.removed[i]?).map (·.1)) : WRel less ok x { x with spec := s } := by
  obtain ⟨h1, h2⟩ := h.cur.congr hm hr
  exact ⟨⟨hs, h1⟩, ⟨[], by rw [List.append_nil]; exact h2⟩, fun _ => Nat.le_of_eq (SCSpec.room_congr hm), fun q _ hq =>
    ⟨find_congr hw h.spec.sorted hm hq, id⟩⟩

theorem WRel.op (hw : StrictWeak less) (h : WOk less x) {op : SCOp K V} (hop : ok op = true) : WRel less ok x (x.op less op) := by
  by_cases hm : ∃ r o, op = .map r o
  · obtain ⟨r, o, rfl⟩ := hm
    have h0 := (h.spec.put 0 h.cur)
    obtain ⟨a1, a2⟩ := h.cur.map_step hw h.spec.sorted o
    refine ⟨⟨(h.spec.step hw _).1, a1⟩, a2, fun hi => ?_, fun q hq hf => ⟨SCSpec.keeps hw h.spec (hq _ hop) hf, fun hb => ?_⟩⟩
    · have := h.cur.room_map hw h.spec.sorted r o
      rw [hi _ hop] at this
      simp only [Bool.false_eq_true, if_false, Nat.add_zero] at this
      exact this
    · have := SOk.before_step hw h0 (.map r o) 0 rfl (q := q) hf (SCSpec.keeps hw h.spec (hq _ hop) hf) (by simpa [SCSpec.put] using hb) (by simp)
      simp only [SCSpec.step, SCSpec.put, if_true] at this
      exact this
  · have hm' : ∀ r o, op ≠ .map r o := fun r o e => hm ⟨r, o, e⟩
    have e : x.op less op = { x with spec := (x.spec.step less op).2 } := by
      cases op with
      | map r o => exact absurd rfl (hm' r o)
      | _ => rfl
    rw [e]
    exact WRel.vals hw h (h.spec.step hw op).1 (x.spec.still hm').1 (x.spec.still hm').2

theorem SCSpec.total_step (less : K → K → Bool) (s : SCSpec K V) {op : SCOp K V} (h : op.total = true) : (s.step less op).1 ≠ .of .panicked := by
  cases op with
  | map r o => cases o <;> simp [SCSpec.step, SMap.step]
  | _ => first | (simp [SCOp.total] at h; done) | simp [SCSpec.step]

/-- How a callback ends, and what it does to the loop. -/
theorem WOk.prog (hw : StrictWeak less) {pa ha : Bool} (p : SProg K V α) : p.Within pa ha ok → ∀ {x : SWalk K V}, WOk less x → x.ahead ≠ [] →
    match p.spec less x with
    | .ok _ y => WRel less ok x y
    | .panic _ => pa = true ∨ ∃ op, ok op = true ∧ op.total = false
    | .diverge => ha = true := by
  induction p with
  | ret a => intro _ x h _; exact WRel.refl h
  | panic => intro hp x _ _; exact .inl hp
  | hang => intro hp x _ _; exact hp
  | call op k ih =>
    intro hp x h hne
    have hr : WRel less ok x (x.op less op) := WRel.op hw h hp.1
    have hne' : (x.op less op).ahead ≠ [] := by
      obtain ⟨ext, e⟩ := hr.more
      rw [e]; simp [hne]
    have goal : ∀ o, match (k o).spec less (x.op less op) with
        | .ok _ y => WRel less ok x y
        | .panic _ => pa = true ∨ ∃ op, ok op = true ∧ op.total = false
        | .diverge => ha = true := by
      intro o
      have := ih o (hp.2 o) hr.wok hne'
      cases hs : (k o).spec less (x.op less op) with
      | ok a y => rw [hs] at this; exact hr.trans this
      | panic y => rw [hs] at this; exact this
      | diverge => rw [hs] at this; exact this
    simp only [SProg.spec]
    cases ho : (x.spec.step less op).1 with
    | key k' => exact goal _
    | of o =>
      cases o with
      | panicked =>
        refine .inr ⟨op, hp.1, ?_⟩
        cases ht : op.total with
        | false => rfl
        | true => exact absurd ho (SCSpec.total_step less x.spec ht)
      | _ => exact goal _
  | load k ih =>
    intro hp x h hne
    simp only [SProg.spec]
    have := h.head hw
    cases he : x.entry less with
    | none =>
      rw [he] at this
      cases ha : x.ahead with
      | nil => exact absurd ha hne
      | cons => rw [ha] at this; cases this
    | some e => exact ih e.2 (hp e.2) h hne
  | store v k ih =>
    intro hp x h hne
    simp only [SProg.spec]
    have hh := h.head hw
    cases hd : x.cur.place with
    | none =>
      cases ha : x.ahead with
      | nil => exact absurd ha hne
      | cons => rw [ha] at hh; simp [SWalk.entry, hd] at hh
    | some d =>
      obtain ⟨b1, b2, b3⟩ := x.spec.assign_keys (less := less) v d
      have hs : SOk less (x.spec.assign less v d) :=
        ⟨SMap.sorted_congr b1 h.spec.sorted, fun c => by rw [b3]; exact ((h.spec.curs c).congr b1 b2).1⟩
      have hr : WRel less ok x { x with spec := x.spec.assign less v d } := WRel.vals hw h hs b1 b2
      have hne' : SWalk.ahead { x with spec := x.spec.assign less v d } ≠ [] := by
        obtain ⟨ext, e⟩ := hr.more
        rw [e]; simp [hne]
      have := ih hp hr.wok hne'
      simp only
      cases hs : k.spec less { x with spec := x.spec.assign less v d } with
      | ok a y => rw [hs] at this; exact hr.trans this
      | panic y => rw [hs] at this; exact this
      | diverge => rw [hs] at this; exact this
  | save p k ih =>
    intro hp x h hne
    simp only [SProg.spec]
    have hr : WRel less ok x { x with spec := x.spec.point p x.cur.place } := WRel.vals hw h ⟨h.spec.sorted, h.spec.curs⟩ rfl (fun _ => rfl)
    have := ih hp hr.wok (x := { x with spec := x.spec.point p x.cur.place }) hne
    cases hs : k.spec less { x with spec := x.spec.point p x.cur.place } with
    | ok a y => rw [hs] at this; exact hr.trans this
    | panic y => rw [hs] at this; exact this
    | diverge => rw [hs] at this; exact this

/-- Every program may do everything. -/
theorem SProg.within_all (p : SProg K V α) : p.Within true true (fun _ => true) := by
  induction p with
  | ret a => trivial
  | panic => rfl
  | hang => rfl
  | call op k ih => exact ⟨rfl, ih⟩
  | load k ih => exact ih
  | store v k ih => exact ih
  | save x k ih => exact ih

theorem SProg.within_bind {pa ha : Bool} {p : SProg K V α} {f : α → SProg K V β} (hp : p.Within pa ha ok) (hf : ∀ a, (f a).Within pa ha ok) :
    (p.bind f).Within pa ha ok := by
  induction p with
  | ret a => exact hf a
  | panic => exact hp
  | hang => exact hp
  | call op k ih => exact ⟨hp.1, fun o => ih o (hp.2 o)⟩
  | load k ih => exact fun v => ih v (hp v)
  | store v k ih => exact ih hp
  | save x k ih => exact ih hp

/-- Moving on. -/
theorem WOk.next (h : WOk less x) (hne : x.ahead ≠ []) : ∃ c, x.cur.next less x.spec.map = some c ∧ WOk less { x with cur := c } ∧
    ∃ k, x.ahead.head? = some k ∧ ∀ y ∈ SWalk.ahead { x with cur := c }, less k y = true := by
  cases hn : x.cur.next less x.spec.map with
  | none =>
    exfalso
    apply hne
    unfold SCur.next at hn
    cases hg : x.cur.gone with
    | cons => simp [hg] at hn
    | nil => cases hst : x.cur.start with
      | some => simp [hg, hst] at hn
      | none => simp [SWalk.ahead, SCSpec.ahead, hg, hst]
  | some c =>
    obtain ⟨b1, k, b2, b3⟩ := h.cur.next hn
    exact ⟨c, rfl, ⟨h.spec, b1⟩, k, b2, b3⟩

theorem WOk.before_next (hw : StrictWeak less) (h : WOk less x) {c : SCur K} (hc : x.cur.next less x.spec.map = some c) {q : K}
    (hq : (SMap.find less q x.spec.map).isSome = true) (hb : x.cur.Before less q)
    (hn : ∀ k, x.ahead.head? = some k → sameKey less q k = false) : c.Before less q := by
  have e : ((x.spec.put 0 x.cur).step less (.next 0)).2 = (x.spec.put 0 x.cur).put 0 c := by
    simp only [SCSpec.step]
    have : ((x.spec.put 0 x.cur).curs 0).next less (x.spec.put 0 x.cur).map = some c := by simpa [SCSpec.put] using hc
    rw [this]
  have := SOk.before_step hw (h.spec.put 0 h.cur) (.next 0) 0 rfl (q := q) hq (by rw [e]; exact hq) (by simpa [SCSpec.put] using hb)
    (fun _ k hk => hn k (by simpa [SCSpec.put, SWalk.ahead] using hk))
  rw [e] at this
  simpa [SCSpec.put] using this

theorem WOk.start {s : SCSpec K V} (h : SOk less s) : WOk less ⟨s, { start := s.map.head?.map (·.1) }⟩ := by
  refine ⟨h, CurOk.fresh (fun k hk => ?_) _⟩
  cases hm : s.map with
  | nil => rw [hm] at hk; simp at hk
  | cons e m => rw [hm] at hk; simp at hk; subst hk; exact ⟨e.2, by simp⟩

/-- One round of the loop. -/
theorem WOk.round (hw : StrictWeak less) {pa ha : Bool} {cb : σ → K → SProg K V (σ × Bool)} (hcb : ∀ t k, (cb t k).Within pa ha ok)
    (fuel : Nat) (t : σ) {x : SWalk K V} (h : WOk less x) :
    (x.ahead = [] ∧ SWalk.loop less cb (fuel + 1) t x = .ok t x) ∨
    ∃ k, x.ahead.head? = some k ∧
      ((∃ y, SWalk.loop less cb (fuel + 1) t x = .panic y ∧ (pa = true ∨ ∃ op, ok op = true ∧ op.total = false)) ∨
       (SWalk.loop less cb (fuel + 1) t x = .diverge ∧ ha = true) ∨
       (∃ t' y, (cb t k).spec less x = .ok (t', false) y ∧ SWalk.loop less cb (fuel + 1) t x = .ok t' y) ∨
       (∃ t' y c, (cb t k).spec less x = .ok (t', true) y ∧ SWalk.loop less cb (fuel + 1) t x = SWalk.loop less cb fuel t' { y with cur := c } ∧
          WRel less ok x y ∧ y.cur.next less y.spec.map = some c ∧ y.ahead.head? = some k ∧ WOk less { y with cur := c } ∧
          (∀ z ∈ SWalk.ahead { y with cur := c }, less k z = true))) := by
  have hh := h.head hw
  cases hx : x.entry less with
  | none =>
    rw [hx] at hh
    left
    refine ⟨?_, by simp only [SWalk.loop, hx]⟩
    cases ha : x.ahead with
    | nil => rfl
    | cons => rw [ha] at hh; cases hh
  | some e =>
    rw [hx] at hh
    have hk : x.ahead.head? = some e.1 := hh.symm
    have hne : x.ahead ≠ [] := by intro h0; rw [h0] at hk; cases hk
    refine .inr ⟨e.1, hk, ?_⟩
    have hp := h.prog hw (cb t e.1) (hcb t e.1) hne
    simp only [SWalk.loop, hx]
    cases hs : (cb t e.1).spec less x with
    | panic y => rw [hs] at hp; exact .inl ⟨y, rfl, hp⟩
    | diverge => rw [hs] at hp; exact .inr (.inl ⟨rfl, hp⟩)
    | ok r y =>
      obtain ⟨t', b⟩ := r
      rw [hs] at hp
      have hp : WRel less ok x y := hp
      cases b with
      | false => exact .inr (.inr (.inl ⟨t', y, rfl, rfl⟩))
      | true =>
        obtain ⟨ext, he⟩ := hp.more
        have hy : y.ahead.head? = some e.1 := by
          rw [he]
          cases ha : x.ahead with
          | nil => exact absurd ha hne
          | cons a l => rw [ha] at hk; exact hk
        have hne' : y.ahead ≠ [] := by intro h0; rw [h0] at hy; cases hy
        obtain ⟨c, c1, c2, k, c3, c4⟩ := hp.wok.next hne'
        rw [hy] at c3
        cases c3
        exact .inr (.inr (.inr ⟨t', y, c, rfl, by simp only [c1], hp, c1, hy, c2, c4⟩))

theorem SWalk.loop_noPanic (hw : StrictWeak less) {cb : σ → K → SProg K V (σ × Bool)} (hcb : ∀ t k, (cb t k).Within false true SCOp.total)
    (fuel : Nat) : ∀ (t : σ) {x : SWalk K V}, WOk less x → ∀ y, SWalk.loop less cb fuel t x ≠ .panic y := by
  induction fuel with
  | zero => intro t x _ y h; cases h
  | succ fuel ih =>
    intro t x h y hc
    rcases h.round hw hcb fuel t with ⟨_, e⟩ | ⟨k, _, ⟨_, _, h'⟩ | ⟨e, _⟩ | ⟨_, _, _, e⟩ | ⟨t', z, c, _, e, _, _, _, hz, _⟩⟩
    · rw [e] at hc; cases hc
    · rcases h' with h' | ⟨op, h1, h2⟩
      · cases h'
      · rw [h1] at h2; cases h2
    · rw [e] at hc; cases hc
    · rw [e] at hc; cases hc
    · rw [e] at hc; exact ih t' hz y hc

theorem SWalk.loop_ends (hw : StrictWeak less) {cb : σ → K → SProg K V (σ × Bool)}
    (hcb : ∀ t k, (cb t k).Within true false (fun op => !op.isInsert)) (fuel : Nat) : ∀ (t : σ) {x : SWalk K V}, WOk less x →
    SCSpec.room less x.spec.map x.cur < fuel → SWalk.loop less cb fuel t x ≠ .diverge := by
  induction fuel with
  | zero => intro t x _ h; omega
  | succ fuel ih =>
    intro t x h hf hc
    rcases h.round hw hcb fuel t with ⟨_, e⟩ | ⟨k, _, ⟨_, e, _⟩ | ⟨_, h'⟩ | ⟨_, _, _, e⟩ | ⟨t', z, c, _, e, hr, hn, _, hz, _⟩⟩
    · rw [e] at hc; cases hc
    · rw [e] at hc; cases hc
    · cases h'
    · rw [e] at hc; cases hc
    · rw [e] at hc
      refine ih t' hz ?_ hc
      have h1 := hr.room (fun op h => by simpa using h)
      have h2 := hr.wok.cur.room_next hw hr.wok.spec.sorted hn
      show SCSpec.room less z.spec.map c < fuel
      omega

theorem SProg.noting_spec {cb : σ → K → SProg K V (σ × Bool)} {t : σ × List K} {k : K} {x y : SWalk K V} {r : (σ × List K) × Bool}
    (h : (SProg.noting cb t k).spec less x = .ok r y) : r.1.2 = t.2 ++ [k] ∧ (cb t.1 k).spec less x = .ok (r.1.1, r.2) y := by
  simp only [SProg.noting, SProg.spec_bind] at h
  cases hs : (cb t.1 k).spec less x with
  | ok a s => rw [hs] at h; simp only [SProg.spec] at h; cases h; exact ⟨rfl, rfl⟩
  | panic => rw [hs] at h; cases h
  | diverge => rw [hs] at h; cases h

theorem SProg.goOn_spec {cb : σ → K → SProg K V σ} {t : σ} {k : K} {x y : SWalk K V} {r : σ × Bool}
    (h : (SProg.goOn cb t k).spec less x = .ok r y) : r.2 = true := by
  simp only [SProg.goOn, SProg.spec_bind] at h
  cases hs : (cb t k).spec less x with
  | ok a s => rw [hs] at h; simp only [SProg.spec] at h; cases h; rfl
  | panic => rw [hs] at h; cases h
  | diverge => rw [hs] at h; cases h

theorem SWalk.loop_ascending (hw : StrictWeak less) (cb : σ → K → SProg K V (σ × Bool)) (fuel : Nat) :
    ∀ (t : σ) (ks : List K) {x : SWalk K V}, WOk less x → ks.Pairwise (fun a b => less a b = true) → (∀ a ∈ ks, ∀ b ∈ x.ahead, less a b = true) →
    ∀ t' ks' y, SWalk.loop less (SProg.noting cb) fuel (t, ks) x = .ok (t', ks') y → ks'.Pairwise (fun a b => less a b = true) := by
  induction fuel with
  | zero => intro t ks x _ _ _ t' ks' y h; cases h
  | succ fuel ih =>
    intro t ks x h hp hlt t' ks' y hc
    have add : ∀ k, x.ahead.head? = some k → (ks ++ [k]).Pairwise (fun a b => less a b = true) := by
      intro k hk
      rw [List.pairwise_append]
      refine ⟨hp, by simp, fun a ha b hb => ?_⟩
      simp only [List.mem_singleton] at hb
      subst hb
      exact hlt a ha _ (List.mem_of_mem_head? (by rw [hk]; rfl))
    rcases h.round hw (fun t k => SProg.within_all _) fuel (t, ks) with
      ⟨_, e⟩ | ⟨k, hk, ⟨_, e, _⟩ | ⟨e, _⟩ | ⟨r, z, e0, e⟩ | ⟨r, z, c, e0, e, hr, _, _, hz, hgt⟩⟩
    · rw [e] at hc; cases hc; exact hp
    · rw [e] at hc; cases hc
    · rw [e] at hc; cases hc
    · rw [e] at hc; cases hc
      have e1 : ks' = ks ++ [k] := (SProg.noting_spec e0).1
      rw [e1]; exact add k hk
    · rw [e] at hc
      have e1 := (SProg.noting_spec e0).1
      obtain ⟨r1, r2⟩ := r
      simp only at e1
      subst e1
      refine ih r1 (ks ++ [k]) hz (add k hk) (fun a ha b hb => ?_) t' ks' y hc
      have hkb := hgt b hb
      rcases List.mem_append.1 ha with ha | ha
      · exact hw.trans _ _ _ (hlt a ha k (List.mem_of_mem_head? (by rw [hk]; rfl))) hkb
      · simp only [List.mem_singleton] at ha; subst ha; exact hkb

theorem SWalk.loop_mono (cb : σ → K → SProg K V (σ × Bool)) (fuel : Nat) :
    ∀ (t : σ) (ks : List K) {x : SWalk K V} t' ks' y, SWalk.loop less (SProg.noting cb) fuel (t, ks) x = .ok (t', ks') y → ∀ k ∈ ks, k ∈ ks' := by
  induction fuel with
  | zero => intro t ks x t' ks' y h; cases h
  | succ fuel ih =>
    intro t ks x t' ks' y hc k hk
    simp only [SWalk.loop] at hc
    cases hx : x.entry less with
    | none => rw [hx] at hc; cases hc; exact hk
    | some e =>
      rw [hx] at hc
      simp only at hc
      cases hs : (SProg.noting cb (t, ks) e.1).spec less x with
      | panic => rw [hs] at hc; cases hc
      | diverge => rw [hs] at hc; cases hc
      | ok r z =>
        have e1 := (SProg.noting_spec hs).1
        rw [hs] at hc
        obtain ⟨⟨r1, r2⟩, b⟩ := r
        simp only at e1
        subst e1
        cases b with
        | false => simp only at hc; cases hc; exact List.mem_append_left _ hk
        | true =>
          simp only at hc
          cases hn : z.cur.next less z.spec.map with
          | none => rw [hn] at hc; cases hc
          | some c => rw [hn] at hc; exact ih _ _ _ _ _ hc k (List.mem_append_left _ hk)

theorem SWalk.loop_visited (hw : StrictWeak less) (cb : σ → K → SProg K V σ) {q : K}
    (hcb : ∀ t k, (cb t k).Within true true (fun op => !op.removesKey less q)) (fuel : Nat) :
    ∀ (t : σ) (ks : List K) {x : SWalk K V}, WOk less x → (SMap.find less q x.spec.map).isSome = true → x.cur.Before less q →
    ∀ t' ks' y, SWalk.loop less (SProg.noting (SProg.goOn cb)) fuel (t, ks) x = .ok (t', ks') y → ∃ k ∈ ks', sameKey less q k = true := by
  induction fuel with
  | zero => intro t ks x _ _ _ t' ks' y h; cases h
  | succ fuel ih =>
    intro t ks x h hq hb t' ks' y hc
    have hcb' : ∀ (t : σ × List K) k, (SProg.noting (SProg.goOn cb) t k).Within true true (fun op => !op.removesKey less q) :=
      fun t k => SProg.within_bind (SProg.within_bind (hcb t.1 k) (fun _ => trivial)) (fun _ => trivial)
    rcases h.round hw hcb' fuel (t, ks) with
      ⟨e0, _⟩ | ⟨k, hk, ⟨_, e, _⟩ | ⟨e, _⟩ | ⟨r, z, e0, e⟩ | ⟨r, z, c, e0, e, hr, hn, hkz, hz, hgt⟩⟩
    · obtain ⟨k, hk, _⟩ := h.cur.before_head hw hb
      simp only [SWalk.ahead] at e0
      rw [e0] at hk; cases hk
    · rw [e] at hc; cases hc
    · rw [e] at hc; cases hc
    · have := SProg.goOn_spec (SProg.noting_spec e0).2
      cases this
    · rw [e] at hc
      have e1 := (SProg.noting_spec e0).1
      obtain ⟨r1, r2⟩ := r
      simp only at e1
      subst e1
      by_cases hs : sameKey less q k = true
      · exact ⟨k, SWalk.loop_mono _ fuel _ _ _ _ _ hc k (by simp), hs⟩
      · obtain ⟨k1, k2⟩ := hr.keep q (fun op h => by simpa using h) hq
        refine ih r1 (ks ++ [k]) hz k1 (hr.wok.before_next hw hn k1 (k2 hb) (fun k' hk' => ?_)) t' ks' y hc
        rw [hkz] at hk'; cases hk'
        simpa using hs

/-! ## Particular callbacks -/

/-- A callback of `ForEach` that inserts a greater key. -/
def SProg.insertNext (f : K → K) (t : σ) (k : K) (v : V) : SProg K V σ := .call (.map 0 (.insert (f k) v)) (fun _ => .ret t)

theorem SWalk.loop_insertNext (hw : StrictWeak less) (f : K → K) (hf : ∀ k, less k (f k) = true) (fuel : Nat) :
    ∀ (t : σ) {x : SWalk K V}, WOk less x → x.ahead ≠ [] → x.cur.gone = [] →
    SWalk.loop less (SProg.goOn (SProg.byValue (SProg.insertNext f))) fuel t x = .diverge := by
  induction fuel with
  | zero => intros; rfl
  | succ fuel ih =>
    intro t x h hne hg
    have hh := h.head hw
    cases hx : x.entry less with
    | none =>
      rw [hx] at hh
      cases ha : x.ahead with
      | nil => exact absurd ha hne
      | cons => rw [ha] at hh; cases hh
    | some e =>
      have hst : x.cur.start = some e.1 := by
        rw [hx] at hh
        cases hs : x.cur.start with
        | none => simp [SWalk.ahead, SCSpec.ahead, hg, hs] at hne
        | some k => simp [SWalk.ahead, SCSpec.ahead, hg, hs] at hh; rw [hh]
      have hr : WRel less (fun _ => true) x (x.op less (.map 0 (.insert (f e.1) e.2))) := WRel.op hw h rfl
      have hc : (x.op less (.map 0 (.insert (f e.1) e.2))).cur = x.cur := SCur.after_id (by simp) (by simp) _
      have hin : ∃ k', (∃ v, (k', v) ∈ SMap.insert less (f e.1) e.2 x.spec.map) ∧ less e.1 k' = true := by
        obtain ⟨G, H, S, sp⟩ := SSplit.exists hw (f e.1) x.spec.map h.spec.sorted
        rcases sp.cases with rfl | ⟨e', rfl⟩
        · rw [SMap.insert_miss hw sp]; exact ⟨f e.1, ⟨e.2, by simp⟩, hf _⟩
        · rw [SMap.insert_hit hw sp]
          exact ⟨e'.1, ⟨e.2, by simp⟩, hw.lt_of_lt_of_not (hf _) (sp.hit e' (by simp)).1⟩
      obtain ⟨k', hk', hlt⟩ := hin
      obtain ⟨k2, hs, _⟩ := SMap.succ_le hw hr.wok.spec.sorted (k := e.1) hk' hlt
      have hn : (x.op less (.map 0 (.insert (f e.1) e.2))).cur.next less (x.op less (.map 0 (.insert (f e.1) e.2))).spec.map =
          some { x.cur with start := some k2 } := by
        rw [hc]; simp only [SCur.next, hg, hst, hs]
      have hne' : (x.op less (.map 0 (.insert (f e.1) e.2))).ahead ≠ [] := by
        obtain ⟨ext, e⟩ := hr.more
        rw [e]; simp [hne]
      obtain ⟨c, c1, c2, _⟩ := hr.wok.next hne'
      rw [hn] at c1
      cases c1
      simp only [SWalk.loop, hx, SProg.goOn, SProg.byValue, SProg.insertNext, SProg.bind, SProg.spec]
      have ho : (x.spec.step less (.map 0 (.insert (f e.1) e.2))).1 = .of .unit := rfl
      rw [ho]
      simp only [hn]
      exact ih t c2 (by simp [SWalk.ahead, SCSpec.ahead]) hg

/-- A callback of `ForEach` that clears the map. -/
def SProg.clearing (t : List (K × V)) (k : K) (v : V) : SProg K V (List (K × V)) := .call (.map 0 .clear) (fun _ => .ret (t ++ [(k, v)]))

theorem SWalk.loop_cleared (g : List Nat) : ∀ (t : List (K × V)) (fuel : Nat) {x : SWalk K V}, x.spec.map = [] → x.cur.gone = g → x.cur.start = none →
    (∀ i ∈ g, i < x.spec.removed.length) → g.length < fuel →
    ∃ y, SWalk.loop less (SProg.goOn (SProg.byValue SProg.clearing)) fuel t x = .ok (t ++ g.filterMap (fun i => x.spec.removed[i]?)) y ∧ y.spec.map = [] := by
  induction g with
  | nil =>
    intro t fuel x hm hg hst _ hf
    cases fuel with
    | zero => omega
    | succ fuel => exact ⟨x, by simp [SWalk.loop, SWalk.entry, SCur.place, hg, hst], hm⟩
  | cons i g ih =>
    intro t fuel x hm hg hst hi hf
    cases fuel with
    | zero => omega
    | succ fuel =>
      have hlt := hi i (by simp)
      have he : x.entry less = some x.spec.removed[i] := by
        simp [SWalk.entry, SCur.place, hg, SCSpec.entry, hlt]
      have hc : (x.op less (.map 0 .clear)).cur.gone = i :: g := by simp [SWalk.op, SCur.after, hst, hg]
      have hs : (x.op less (.map 0 .clear)).cur.start = none := by simp [SWalk.op, SCur.after, hst]
      have hr : (x.op less (.map 0 .clear)).spec.removed = x.spec.removed := by
        simp [SWalk.op, SCSpec.step, SMap.removes, hm]
      obtain ⟨y, e1, e2⟩ := ih (t ++ [x.spec.removed[i]]) fuel
        (x := { spec := (x.op less (.map 0 .clear)).spec, cur := { (x.op less (.map 0 .clear)).cur with gone := g } })
        rfl rfl hs (fun j hj => by show j < (x.op less (.map 0 .clear)).spec.removed.length; rw [hr]; exact hi j (by simp [hj]))
        (by simp at hf; omega)
      refine ⟨y, ?_, e2⟩
      have ho : (x.spec.step less (.map 0 .clear)).1 = .of .unit := rfl
      have hn : (x.op less (.map 0 .clear)).cur.next less (x.op less (.map 0 .clear)).spec.map =
          some { (x.op less (.map 0 .clear)).cur with gone := g } := by simp only [SCur.next, hc]
      simp only [SWalk.loop, he, SProg.goOn, SProg.byValue, SProg.clearing, SProg.bind, SProg.spec, ho, hn]
      have e0 : (t ++ [x.spec.removed[i]]) ++ g.filterMap (fun i => (x.op less (.map 0 .clear)).spec.removed[i]?) =
          t ++ (i :: g).filterMap (fun i => x.spec.removed[i]?) := by
        rw [hr]; simp [hlt]
      rw [← e0]
      exact e1

theorem SWalk.run_clearing (hw : StrictWeak less) {s : SCSpec K V} (h : SOk less s) (fuel : Nat) (hf : s.map.length < fuel) :
    ∃ y, SWalk.run less fuel (SProg.goOn (SProg.byValue SProg.clearing)) [] s = .ok s.map y ∧ y.spec.map = [] := by
  cases hm : s.map with
  | nil =>
    obtain ⟨y, e1, e2⟩ := SWalk.loop_cleared (less := less) [] [] fuel (x := ⟨s, {}⟩) hm rfl rfl (by simp) (by simp; omega)
    exact ⟨y, by simpa [SWalk.run, hm] using e1, e2⟩
  | cons e m =>
    cases fuel with
    | zero => omega
    | succ fuel =>
      have hx : SWalk.entry less ⟨s, { start := some e.1 }⟩ = some e := by
        simp [SWalk.entry, SCur.place, SCSpec.entry, hm, sameKey, hw.irrefl]
      have hk : SMap.rank less s.map e.1 = 0 := by
        have hs := h.sorted
        rw [hm] at hs ⊢
        rw [SMap.rank, List.length_eq_zero_iff, List.filter_eq_nil_iff]
        intro a ha
        rcases List.mem_cons.1 ha with rfl | ha
        · simp [hw.irrefl]
        · simp [hw.asymm (List.rel_of_pairwise_cons hs ha)]
      have hx' : (SWalk.op less ⟨s, { start := some e.1 }⟩ (.map 0 .clear)) =
          ⟨{ map := [], removed := s.removed ++ (e :: m), curs := fun c => (s.curs c).after less s.map s.removed.length .clear,
             ptrs := fun p => (s.ptrs p).map (SPlace.after less s.map s.removed.length .clear) },
           { gone := List.range' s.removed.length (m.length + 1), start := none, stop := none }⟩ := by
        have hk' := hk
        rw [hm] at hk'
        simp [SWalk.op, SCSpec.step, SMap.step, SMap.removes, SCur.after, hk', hm]
      have hn : (SWalk.op less ⟨s, { start := some e.1 }⟩ (.map 0 .clear)).cur.next less
          (SWalk.op less ⟨s, { start := some e.1 }⟩ (.map 0 .clear)).spec.map =
          some { gone := List.range' (s.removed.length + 1) m.length, start := none, stop := none } := by
        rw [hx']; simp [SCur.next, List.range'_succ]
      obtain ⟨y, e1, e2⟩ := SWalk.loop_cleared (less := less) (List.range' (s.removed.length + 1) m.length) [e] fuel
        (x := { spec := (SWalk.op less ⟨s, { start := some e.1 }⟩ (.map 0 .clear)).spec,
                cur := { gone := List.range' (s.removed.length + 1) m.length, start := none, stop := none } })
        (by rw [hx']) rfl rfl (fun i hi => by
          rw [hx']
          simp only [List.mem_range'_1] at hi
          simp; omega) (by rw [hm] at hf; simp at hf ⊢; omega)
      refine ⟨y, ?_, e2⟩
      have ho : (s.step less (.map 0 .clear)).1 = .of .unit := rfl
      simp only [SWalk.run, hm, List.head?_cons, Option.map_some, SWalk.loop, hx, SProg.goOn, SProg.byValue, SProg.clearing, SProg.bind, SProg.spec,
        ho, hn, List.nil_append]
      have e0 : [e] ++ (List.range' (s.removed.length + 1) m.length).filterMap (fun i =>
          (SWalk.op less ⟨s, { start := some e.1 }⟩ (.map 0 .clear)).spec.removed[i]?) = e :: m := by
        rw [hx']
        have := filterMap_range' (fun a : K × V => a) m (s.removed ++ [e])
        simp only [List.length_append, List.length_singleton, List.append_assoc, List.singleton_append, Option.map_id', List.map_id'] at this
        simp [this]
      rw [e0] at e1
      exact e1

end Stl4go
