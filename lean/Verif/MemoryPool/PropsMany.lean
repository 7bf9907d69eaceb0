import Verif.MemoryPool.LemmasMany

/-! # C128: pools of several objects whose destructors allocate -/

namespace Verif.MemoryPool
open Verif.Cpp Verif.Bitset

variable {α : Type}

/-- Any number of objects, each of which may allocate any number of others when it is destroyed (which may allocate in turn): the destructor of the pool (and `Clear`) ends all
objects exactly if the condition `Clean` holds. -/
theorem C128_exact {bs S : Nat} {bases : Nat → Nat} {spawn : α → List α} {moves : Nat → Nat → Bool} {p : Pool α} {a : Abs α} (h : Reached bs S p a) (h2 : 2 ≤ bs)
    (hobj : ∀ i, a.entries i ≠ some none) (hb : BasesOk bs S bases a) {fuel : Nat} (hfuel : (a.swept bs bases spawn bs).bases.length < fuel) :
    destructorS S bases spawn moves fuel p = .ok 0 ↔ Clean bs bases spawn moves a := by
  have hr := h.repr
  have hbs : 0 < bs := by omega
  obtain ⟨fu, rfl⟩ : ∃ fu, fuel = fu + 1 := ⟨fuel - 1, by omega⟩
  rcases Nat.eq_zero_or_pos p.blocks.length with h0 | hpos
  · -- no blocks
    have hnone : ∀ i, a.isLive i = false := by
      intro i
      cases hx : a.isLive i
      · rfl
      · have := hr.bound i hx
        rw [Abs.capacity, ← hr.len, h0, Nat.zero_mul] at this
        omega
    have hskip := swept_skip (bs := bs) (bases := bases) (spawn := spawn) (a := a) (m := 0) (n := bs) (fun j _ _ => hnone j)
    have hnil : p.blocks = [] := List.length_eq_zero_iff.mp h0
    constructor
    · intro _
      refine ⟨fun i hi => Or.inl (by rw [hskip i (by omega) (by omega), hskip (i + 1) (by omega) (by omega)]), fun i v hi hv => ?_, fun i v hi hv => ?_⟩
      all_goals
        rw [hskip bs (by omega) (Nat.le_refl _)] at hv
        have := isLive_false (hnone i)
        simp only [Abs.swept] at hv
        rw [this] at hv
        cases hv
    · intro _
      simp [destructorS, resetLoopS, hnil]
  · rcases firstBlock (S := S) (bases := bases) (spawn := spawn) (moves := moves) h2 hobj hr hb hpos with ⟨i, i1, i2, i3⟩ | ⟨hst, q, c, e, r, hq0, c1, c2, ⟨f, c3⟩, f', c4⟩
    · constructor
      · intro hx
        simp only [destructorS, resetLoopS, hpos, if_true, i3, err_bind] at hx
        cases hx
      · intro hx
        exact absurd (hx.stay i i1) i2
    · obtain ⟨A, hA⟩ : ∃ A : Abs α, A = a.swept bs bases spawn bs := ⟨_, rfl⟩
      have hobjA : ∀ i, bs ≤ i → A.entries i ≠ some none := by
        intro i hi hx
        rw [hA] at hx
        have := swept_none hobj bs hx
        omega
      rw [← hA] at r c2 hfuel
      simp only [destructorS, resetLoopS, hpos, if_true, e, ok_bind, Nat.zero_add]
      by_cases hleft : ∀ i v, i < bs → A.entries i ≠ some (some v)
      · have hm : c.memory = Slots.mk bs (fun _ => none) := by
          rw [c2]
          apply Slots.mk_congr
          intro j hj
          cases hx : A.entries j with
          | none => rfl
          | some x =>
            cases x with
            | none => rfl
            | some v => exact absurd hx (hleft j v hj)
        by_cases hq : ∀ i v, bs ≤ i → A.entries i = some (some v) → spawn v = []
        · refine iff_of_true ?_ ⟨hst, by rw [← hA]; exact hleft, by rw [← hA]; exact hq⟩
          obtain ⟨z, ez, z1, z2, z3⟩ := finish_rest (S := S) (bases := bases) (spawn := spawn) (moves := moves) h2 (p := ⟨bs, q.blocks.set 0 c⟩) (d := 1) (fuel := fu)
            (by rw [List.length_set]; exact hq0) (by simp only [List.length_set]; rw [r.len]; omega) (by
              intro d d1 d2
              simp only [List.length_set] at d2
              obtain ⟨x, y, x1, x2, x3, x4⟩ := r.get d2
              refine ⟨x, y, _, by simp only [List.getElem?_set]; rw [if_neg (by omega)]; exact x1, x4, ?_⟩
              intro j hj
              have : bs ≤ d * bs := Nat.le_mul_of_pos_left bs (by omega)
              exact ⟨hobjA _ (by omega), fun v hv => hq _ v (by omega) hv⟩)
          have hz0 : z.blocks[0]? = some c := by
            rw [z2 0 (by omega)]
            simp [hq0]
          have hsum := sum_first hz0 (fun d b hd hb => z3 d b (by omega) hb)
          simp only [ez, ok_bind, hsum, hm, alive_raw, pure_ok]
        · refine iff_of_false ?_ (fun hx => hq (by rw [hA]; exact hx.quiet))
          intro hx
          obtain ⟨z, ez, hx⟩ := bind_inv hx
          simp only [pure_ok, Except.ok.injEq] at hx
          -- the first object that allocates
          have hex : ∃ k, bs ≤ k ∧ ∃ v, A.entries k = some (some v) ∧ spawn v ≠ [] := by
            apply Classical.byContradiction
            intro hn
            apply hq
            intro i v hi hv
            apply Classical.byContradiction
            intro hs
            exact hn ⟨i, hi, v, hv, hs⟩
          have hmin : ∀ n k, k < n → (bs ≤ k ∧ ∃ v, A.entries k = some (some v) ∧ spawn v ≠ []) →
              ∃ k, (bs ≤ k ∧ ∃ v, A.entries k = some (some v) ∧ spawn v ≠ []) ∧ ∀ i u, bs ≤ i → i < k → A.entries i = some (some u) → spawn u = [] := by
            intro n
            induction n with
            | zero => intro k hk; omega
            | succ n ih =>
              intro k hk hkk
              by_cases hall : ∀ i u, bs ≤ i → i < k → A.entries i = some (some u) → spawn u = []
              · exact ⟨k, hkk, hall⟩
              · obtain ⟨i, hi⟩ : ∃ i, i < k ∧ bs ≤ i ∧ ∃ v, A.entries i = some (some v) ∧ spawn v ≠ [] := by
                  apply Classical.byContradiction
                  intro hn
                  apply hall
                  intro i u h1 h3 h4
                  apply Classical.byContradiction
                  intro hs
                  exact hn ⟨i, h3, h1, u, h4, hs⟩
                exact ih i (by omega) hi.2
          obtain ⟨k0, hk0⟩ := hex
          obtain ⟨k, ⟨k1, v, k2, k3⟩, k4⟩ := hmin (k0 + 1) k0 (by omega) hk0
          obtain ⟨j, hj⟩ := later_fails (S := S) (bases := bases) (moves := moves) h2 hobjA r c1 hm c3 c4 k1 k2 k3 k4 ez
          have := kept_sum hj
          omega
      · refine iff_of_false ?_ (fun hx => hleft (by rw [hA]; exact hx.none_left))
        intro hx
        obtain ⟨z, ez, hx⟩ := bind_inv hx
        simp only [pure_ok, Except.ok.injEq] at hx
        obtain ⟨i, v, hi, hv⟩ : ∃ i v, i < bs ∧ A.entries i = some (some v) := by
          apply Classical.byContradiction
          intro hn
          apply hleft
          intro i v hi hv
          exact hn ⟨i, v, hi, hv⟩
        have hk : Kept i (q.blocks.set 0 c) := ⟨c, v, by simp [hq0], by rw [c2, Slots.mk_get hi, hv]; rfl⟩
        have := kept_sum (resetLoopS_kept (by omega) ez hk)
        omega

/-! ### A condition on the objects that are there -/

theorem firstFree_ge {bs F : Nat} {c : Abs α} (hbound : ∀ i, c.isLive i = true → i < c.capacity bs) (hl : ∀ j, j < F → c.isLive j = true) : F ≤ c.firstFree bs := by
  rcases Nat.lt_or_ge (c.firstFree bs) F with hlt | hge
  · exfalso
    have h1 := hl _ hlt
    unfold Abs.firstFree at h1
    cases hf : (List.range (c.capacity bs)).find? (fun i => !c.isLive i) with
    | none =>
      rw [hf] at h1
      exact absurd (hbound _ h1) (by simp)
    | some x =>
      rw [hf] at h1
      have := List.find?_some hf
      simp only [Option.getD_some] at h1
      rw [h1] at this
      cases this
  · exact hge

theorem firstFree_le {bs : Nat} {c : Abs α} : c.firstFree bs ≤ c.capacity bs := by
  unfold Abs.firstFree
  cases hf : (List.range (c.capacity bs)).find? (fun i => !c.isLive i) with
  | none => exact Nat.le_refl _
  | some x => exact Nat.le_of_lt (List.mem_range.mp (List.mem_of_find?_eq_some hf))

theorem spawned_cases {bs F : Nat} {bases : Nat → Nat} {spawn : α → List α} (hbs : 0 < bs) (ws : List α) (hq : ∀ w ∈ ws, spawn w = []) {c : Abs α} (hbound : ∀ i, c.isLive i = true → i < c.capacity bs)
    (hl : ∀ j, j < F → c.isLive j = true) :
    (∀ i, (Abs.spawned bs bases ws c).isLive i = true → i < (Abs.spawned bs bases ws c).capacity bs) ∧ (∀ j, j < F → (Abs.spawned bs bases ws c).isLive j = true) ∧
    ∀ i, (Abs.spawned bs bases ws c).entries i = c.entries i ∨ (F ≤ i ∧ ws ≠ [] ∧ ∃ w, (Abs.spawned bs bases ws c).entries i = some (some w) ∧ spawn w = []) := by
  induction ws generalizing c with
  | nil => exact ⟨hbound, hl, fun i => Or.inl rfl⟩
  | cons w ws ih =>
    have hge := firstFree_ge hbound hl
    have hle := firstFree_le (bs := bs) (c := c)
    obtain ⟨c', hc'⟩ : ∃ c', c' = (c.grow bs (bases c.bases.length)).set (c.firstFree bs) (some (some w)) := ⟨_, rfl⟩
    have hent : ∀ i, c'.entries i = if i = c.firstFree bs then some (some w) else c.entries i := by
      intro i
      rw [hc']
      simp only [Abs.set, Abs.grow]
      split
      · rfl
      · split <;> rfl
    have hcap : c.capacity bs ≤ c'.capacity bs ∧ c.firstFree bs < c'.capacity bs := by
      rw [hc']
      simp only [Abs.set, Abs.grow]
      split
      · rename_i he
        simp only [Abs.capacity, List.length_append, List.length_singleton, Nat.succ_mul] at he ⊢
        omega
      · simp only [Abs.capacity] at hle ⊢
        rename_i he
        simp only [Abs.capacity] at he
        omega
    obtain ⟨h1, h2, h3⟩ := ih (fun x hx => hq x (List.mem_cons_of_mem _ hx)) (c := c') (by
      intro i hi
      simp only [Abs.isLive, hent] at hi
      split at hi
      · omega
      · have := hbound i hi; omega) (by
      intro j hj
      simp only [Abs.isLive, hent]
      rw [if_neg (by omega)]
      exact hl j hj)
    simp only [Abs.spawned, ← hc']
    refine ⟨h1, h2, ?_⟩
    intro i
    rcases h3 i with h4 | ⟨h4, h5, h6⟩
    · rw [h4, hent]
      by_cases hi : i = c.firstFree bs
      · right
        rw [if_pos hi]
        exact ⟨by omega, by simp, w, rfl, hq w (by simp)⟩
      · left; rw [if_neg hi]
    · exact Or.inr ⟨h4, by simp, h6⟩

/-- Any number of objects that allocate any numbers of others (which allocate none) when they are destroyed.  If they are in the first block, with no free entry before them, and
the blocks are not moved when some are added, the destructor of the pool (and `Clear`) ends all objects, old and new. -/
theorem C128_many_partial {bs S : Nat} {bases : Nat → Nat} {spawn : α → List α} {moves : Nat → Nat → Bool} {p : Pool α} {a : Abs α} (h : Reached bs S p a) (h2 : 2 ≤ bs)
    (hobj : ∀ i, a.entries i ≠ some none) (hb : BasesOk bs S bases a) (hsp : ∀ k v, a.entries k = some (some v) → spawn v ≠ [] → k < bs ∧ k < a.firstFree bs)
    (hch : ∀ k v, a.entries k = some (some v) → ∀ w ∈ spawn v, spawn w = []) (hmv : ∀ n m, moves n m = false) :
    ∃ N, ∀ fuel, N < fuel → destructorS S bases spawn moves fuel p = .ok 0 := by
  refine ⟨(a.swept bs bases spawn bs).bases.length, fun fuel hfuel => (C128_exact h h2 hobj hb hfuel).mpr ?_⟩
  have hbs : 0 < bs := by omega
  have hinit : ∀ j, j < a.firstFree bs → a.isLive j = true := by
    intro j hj
    cases hx : a.isLive j
    · exfalso
      unfold Abs.firstFree at hj
      cases hf : (List.range (a.capacity bs)).find? (fun i => !a.isLive i) with
      | none =>
        rw [hf] at hj
        have := List.find?_eq_none.mp hf j (List.mem_range.mpr hj)
        rw [hx] at this
        exact this rfl
      | some x =>
        rw [hf] at hj
        obtain ⟨_, i, hi, h3, h4⟩ := List.find?_eq_some_iff_getElem.mp hf
        simp only [List.getElem_range] at h3
        simp only [Option.getD_some] at hj
        have := h4 j (by omega)
        simp only [List.getElem_range, hx] at this
        cases this
    · rfl
  have key : ∀ n, n ≤ bs →
      (∀ i, (a.swept bs bases spawn n).isLive i = true → i < (a.swept bs bases spawn n).capacity bs) ∧
      (∀ j, j < a.firstFree bs → (a.swept bs bases spawn n).isLive j = true) ∧
      (∀ i v, (a.swept bs bases spawn n).entries i = some (some v) → n ≤ i ∧ (∀ w ∈ spawn v, spawn w = []) ∧ (spawn v ≠ [] → i < bs ∧ i < a.firstFree bs)) := by
    intro n
    induction n with
    | zero => intro _; exact ⟨h.repr.bound, hinit, fun i v hv => ⟨by omega, hch i v hv, hsp i v hv⟩⟩
    | succ n ih =>
      intro hn
      obtain ⟨k1, k2, k3⟩ := ih (by omega)
      simp only [Abs.swept, Abs.ended]
      split
      · rename_i v hv
        obtain ⟨m1, m2, m3⟩ := k3 n v hv
        have hlive : ∀ j, ((a.swept bs bases spawn n).set n (some none)).isLive j = (a.swept bs bases spawn n).isLive j := by
          intro j
          simp only [Abs.isLive, Abs.set]
          split
          · rename_i hj; rw [hj, hv]; rfl
          · rfl
        obtain ⟨h1, h3, h4⟩ := spawned_cases (bases := bases) (spawn := spawn) (F := a.firstFree bs) hbs (spawn v) m2 (c := (a.swept bs bases spawn n).set n (some none))
          (by intro i hi; rw [hlive] at hi; exact k1 i hi) (by intro j hj; rw [hlive]; exact k2 j hj)
        refine ⟨h1, h3, ?_⟩
        intro i u hu
        rcases h4 i with h5 | ⟨h5, h6, w, h7, h8⟩
        · rw [hu] at h5
          simp only [Abs.set] at h5
          split at h5
          · cases h5
          · rename_i hin
            obtain ⟨j1, j2, j3⟩ := k3 i u h5.symm
            exact ⟨by omega, j2, j3⟩
        · rw [hu] at h7
          cases h7
          have := m3 h6
          refine ⟨by omega, ?_, fun hne => absurd h8 hne⟩
          intro w hw
          rw [h8] at hw
          cases hw
      · rename_i hnv
        refine ⟨k1, k2, ?_⟩
        intro i u hu
        obtain ⟨j1, j2, j3⟩ := k3 i u hu
        have : i ≠ n := by rintro rfl; exact hnv u hu
        exact ⟨by omega, j2, j3⟩
  obtain ⟨_, _, k3⟩ := key bs (Nat.le_refl _)
  refine ⟨fun i _ => Or.inr (hmv _ _), ?_, ?_⟩
  · intro i v hi hv
    have := (k3 i v hv).1
    omega
  · intro i v hi hv
    apply Classical.byContradiction
    intro hne
    have := ((k3 i v hv).2.2 hne).1
    omega

/-! ### Examples -/

/-- The hypotheses of `C128_many_partial`: two objects of value 7, each of which leaves an object of value 3, in a pool with blocks of two entries that must grow. -/
example : ∃ p a, Reached (α := Nat) 2 4 p a ∧ (∀ i, a.entries i ≠ some none) ∧ BasesOk 2 4 (fun n => 8 * n) a ∧ a.entries 0 = some (some 7) ∧ a.entries 1 = some (some 7) ∧
    (∀ k v, a.entries k = some (some v) → leavesThree v ≠ [] → k < 2 ∧ k < a.firstFree 2) ∧ (∀ k v, a.entries k = some (some v) → ∀ w ∈ leavesThree v, leavesThree w = []) := by
  have hok : okAll (α := Nat) 2 4 [.allocate 8 7, .allocate 8 7] (.start 0) := by
    refine ⟨?_, ?_, trivial⟩
    all_goals (simp only [Op.ok]; show ∀ b ∈ [0], _; simp [Abs.Apart])
  obtain ⟨p0, p, e0, e, s⟩ := C32_history 2 4 0 (by omega) _ hok
  have hent : ∀ i, (specAll 2 [.allocate 8 7, .allocate 8 7] (.start 0)).1.entries i = if i = 1 then some (some 7) else if i = 0 then some (some 7) else none := fun _ => rfl
  refine ⟨p, _, ⟨by omega, 0, _, p0, _, e0, hok, e, rfl⟩, ?_, ⟨?_, ?_⟩, rfl, rfl, ?_, ?_⟩
  · intro i; rw [hent]; by_cases h0 : i = 0 <;> by_cases h1 : i = 1 <;> simp [h0, h1]
  · show ∀ n, 1 ≤ n → ∀ b ∈ [0], Abs.Apart 2 4 (8 * n) b
    intro n hn b hb
    rw [List.mem_singleton.mp hb]
    right; omega
  · show ∀ n m, 1 ≤ n → n < m → Abs.Apart 2 4 (8 * m) (8 * n)
    intro n m _ hm
    right; omega
  · intro k v hv _
    rw [hent] at hv
    have hff : (specAll 2 [.allocate 8 7, .allocate 8 7] (.start (α := Nat) 0)).1.firstFree 2 = 2 := by decide
    rw [hff]
    by_cases h1 : k = 1
    · omega
    · by_cases h0 : k = 0
      · omega
      · simp [h0, h1] at hv
  · intro k v hv w hw
    unfold leavesThree at hw ⊢
    split at hw
    · rw [List.mem_singleton.mp hw]; rfl
    · cases hw

/-- The model on literal pools, with blocks that are not moved: two objects that allocate; and an object that allocates behind a hole, which is filled before by another. -/
def manyDemo (os : List (Op Nat)) : M Nat := do
  let p ← new 3 0
  let r ← runAll 4 os p
  destructorS 4 (fun k => 12 * k) leavesThree (fun _ _ => false) 9 r.1

example : manyDemo [.allocate 12 7, .allocate 12 7, .allocate 12 7] = .ok 0 := by decide +kernel
example : manyDemo [.allocate 12 7, .allocate 12 5, .allocate 12 7, .free 1] = .ok 0 := by decide +kernel
example : manyDemo [.allocate 12 5, .allocate 12 5, .allocate 12 7, .free 1] = .ok 1 := by decide +kernel

end Verif.MemoryPool
