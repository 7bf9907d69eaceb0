import Verif.MemoryPool.LemmasOwn

/-! # Lemmas about the destruction of objects that own entries, whatever they own -/

namespace Verif.MemoryPool
open Verif.Cpp Verif.Bitset

variable {α : Type} {owns : α → List Nat}

/-! ### Sweeps over maps of objects -/

/-- Some objects below `i`, `i` among them, are destroyed; what they own were objects. -/
structure Drops (owns : α → List Nat) (P : Nat → Prop) (m m' : Nat → Option α) : Prop where
  sub : ∀ j v, m' j = some v → m j = some v
  owned : ∀ y v, m y = some v → m' y = none → ∀ j ∈ owns v, ∃ w, m j = some w
  below : ∀ j v, m j = some v → m' j = none → ∃ c, P c ∧ Below owns m c j

/-- The objects are destroyed in the order of their indices. -/
inductive Sweeps (owns : α → List Nat) : (Nat → Option α) → Prop
  | done {m : Nat → Option α} : (∀ i, m i = none) → Sweeps owns m
  | visit {m m' : Nat → Option α} (i : Nat) : (∀ j, j < i → m j = none) → Drops owns (fun c => c = i) m m' → m' i = none → Sweeps owns m' → Sweeps owns m

/-- An object that owns an entry without object cannot be destroyed. -/
theorem Sweeps.sound {m : Nat → Option α} (h : Sweeps owns m) {y x : Nat} (ho : Owns owns m y x) : m x ≠ none := by
  induction h with
  | done h =>
    obtain ⟨v, hv, _⟩ := ho
    rw [h y] at hv
    cases hv
  | @visit m m' i hlt hd hi _ ih =>
    intro hx
    obtain ⟨v, hv, hj⟩ := ho
    cases hy : m' y with
    | none =>
      obtain ⟨w, hw⟩ := hd.owned y v hv hy x hj
      rw [hx] at hw
      cases hw
    | some w =>
      have := hd.sub y w hy
      rw [hv] at this
      cases this
      refine ih ⟨v, hy, hj⟩ ?_
      cases hx' : m' x with
      | none => rfl
      | some u =>
        have := hd.sub x u hx'
        rw [hx] at this
        cases this

/-- Of two entries above the same entry one is above the other. -/
theorem below_linear {m : Nat → Option α} (honce : ∀ i j k, Owns owns m i k → Owns owns m j k → i = j) {i j x : Nat} (h1 : Below owns m i x) (h2 : Below owns m j x) :
    Below owns m i j ∨ Below owns m j i := by
  induction h1 with
  | refl => exact .inr h2
  | @step y z h3 h4 ih =>
    cases h2 with
    | refl => exact .inl (.step h3 h4)
    | step h5 h6 =>
      rw [honce _ _ _ h6 h4] at h5
      exact ih h5

theorem Sweeps.first {m : Nat → Option α} (h : Sweeps owns m) (honce : ∀ i j k, Owns owns m i k → Owns owns m j k → i = j) {rank : Nat → Nat}
    (hrank : ∀ i j, Owns owns m i j → rank j < rank i) : RootFirst owns m := by
  intro r hr j hj
  refine Classical.byContradiction fun hlt => ?_
  have hlt : j < r := by omega
  induction h with
  | done h =>
    rcases hj.head with e | ⟨_, ⟨v, hv, _⟩, _⟩
    · omega
    · rw [h r] at hv; cases hv
  | @visit m m' i hbefore hd hi hs ih =>
    have hsw : Sweeps owns m := .visit i hbefore hd hi hs
    obtain ⟨v, hv⟩ : ∃ v, m r = some v := by
      rcases hj.head with e | ⟨_, ⟨v, hv, _⟩, _⟩
      · omega
      · exact ⟨v, hv⟩
    have hir : i ≤ r := by
      by_cases hh : r < i
      · rw [hbefore r hh] at hv; cases hv
      · omega
    -- the last step of the way from `r` to `j`
    have hlast : ∀ x, Below owns m r x → x ≠ r → ∃ y, Below owns m r y ∧ Owns owns m y x := by
      intro x hx hne
      cases hx with
      | refl => exact absurd rfl hne
      | step h1 h2 => exact ⟨_, h1, h2⟩
    by_cases hbi : Below owns m r i
    · by_cases hri : i = r
      · subst hri
        obtain ⟨y, _, hy⟩ := hlast j hj (by omega)
        exact hsw.sound hy (hbefore j hlt)
      · obtain ⟨y, hy1, hy2⟩ := hlast i hbi hri
        obtain ⟨w, hw, hwi⟩ := hy2
        cases hy' : m' y with
        | none =>
          obtain ⟨c, rfl, hb⟩ := hd.below y w hw hy'
          have := Below.rank_le hrank hb
          have := hrank y c ⟨w, hw, hwi⟩
          omega
        | some u =>
          have := hd.sub y u hy'
          rw [hw] at this
          cases this
          exact hs.sound ⟨w, hy', hwi⟩ hi
    · -- the tree of `r` is not touched
      have hkeep : ∀ y w, Below owns m r y → m y = some w → m' y = some w := by
        intro y w hy hw
        cases hy' : m' y with
        | none =>
          obtain ⟨c, rfl, hb⟩ := hd.below y w hw hy'
          rcases below_linear honce hb hy with h1 | h1
          · cases h1 with
            | refl => exact absurd .refl hbi
            | step _ h2 => exact absurd h2 (hr _)
          · exact absurd h1 hbi
        | some u =>
          have := hd.sub y u hy'
          rw [hw] at this
          cases this
          rfl
      have hj' : ∀ x, Below owns m r x → Below owns m' r x := by
        intro x hx
        induction hx with
        | refl => exact .refl
        | @step y z h1 h2 ih =>
          obtain ⟨w, hw, hz⟩ := h2
          exact .step ih ⟨w, hkeep y w h1 hw, hz⟩
      exact ih (fun a b c h1 h2 => honce a b c (h1.mono hd.sub) (h2.mono hd.sub)) (fun a b h1 => hrank a b (h1.mono hd.sub)) (hr.mono hd.sub) (hj' j hj)

/-! ### Pools -/

/-- The outcome of a call on a pool with contents `a`: it succeeds and has destroyed objects below the indices `P`, or fails. -/
def Outcome (owns : α → List Nat) (bs d : Nat) (P : Nat → Prop) (a : Abs α) (Q : Abs α → Prop) (r : M (Pool α)) : Prop :=
  (∃ q a', r = .ok q ∧ RFrom bs d q a' ∧ a'.bases = a.bases ∧ Drops owns P a.object a'.object ∧ Q a') ∨ ∃ e, r = .error e ∧ e ≠ .diverge

/-- What the free of an entry does. -/
def FreesAny (S : Nat) (owns : α → List Nat) (rank : Nat → Nat) (bs d n : Nat) : Prop :=
  ∀ (p : Pool α) (a : Abs α) (i : Nat), RFrom bs d p a → (∀ i j, Owns owns a.object i j → rank j < rank i) → rank i < n →
    Outcome owns bs d (fun c => c = i) a (fun a' => a'.object i = none ∧ (∃ v, a.object i = some v) ∧
      ∀ j, a'.entries j = a.entries j ∨ (a'.entries j = none ∧ ∃ v, a.object j = some v)) (freeO S owns n p i)

theorem Drops.refl (P : Nat → Prop) (m : Nat → Option α) : Drops owns P m m :=
  ⟨fun _ _ h => h, (fun y v h1 h2 => by rw [h1] at h2; cases h2), (fun j v h1 h2 => by rw [h1] at h2; cases h2)⟩

theorem Drops.trans {P Q R : Nat → Prop} {m m' m'' : Nat → Option α} (h1 : Drops owns P m m') (h2 : Drops owns Q m' m'') (hp : ∀ c, P c → R c) (hq : ∀ c, Q c → R c) :
    Drops owns R m m'' := by
  refine ⟨fun j v hj => h1.sub j v (h2.sub j v hj), ?_, ?_⟩
  · intro y v hy hy'' j hj
    cases hy' : m' y with
    | none => exact h1.owned y v hy hy' j hj
    | some w =>
      have := h1.sub y w hy'
      rw [hy] at this
      cases this
      obtain ⟨u, hu⟩ := h2.owned y v hy' hy'' j hj
      exact ⟨u, h1.sub j u hu⟩
  · intro j v hj hj''
    cases hj' : m' j with
    | none =>
      obtain ⟨c, hc, hb⟩ := h1.below j v hj hj'
      exact ⟨c, hp c hc, hb⟩
    | some w =>
      obtain ⟨c, hc, hb⟩ := h2.below j w hj' hj''
      exact ⟨c, hq c hc, hb.mono h1.sub⟩

theorem freeAll_outcome {S bs d n : Nat} {rank : Nat → Nat} (H : FreesAny S owns rank bs d n) (cs : List Nat) {p : Pool α} {a : Abs α} (h : RFrom bs d p a)
    (hr : ∀ i j, Owns owns a.object i j → rank j < rank i) (hn : ∀ c ∈ cs, rank c < n) :
    Outcome owns bs d (fun c => c ∈ cs) a (fun a' => (∀ c ∈ cs, ∃ v, a.object c = some v) ∧
      ∀ j, a'.entries j = a.entries j ∨ (a'.entries j = none ∧ ∃ v, a.object j = some v)) (cs.foldlM (freeO S owns n) p) := by
  induction cs generalizing p a with
  | nil => exact .inl ⟨p, a, rfl, h, rfl, Drops.refl _ _, by simp, fun _ => .inl rfl⟩
  | cons c cs ih =>
    rw [List.foldlM_cons]
    rcases H p a c h hr (hn c List.mem_cons_self) with ⟨q, a1, e, r, hb, hd, h1, h2, h3⟩ | ⟨e, he, hne⟩
    · rw [e, ok_bind]
      rcases ih r (fun i j hij => hr i j (hij.mono hd.sub)) (fun x hx => hn x (List.mem_cons_of_mem _ hx)) with
        ⟨q', a2, e', r', hb', hd', h1', h2'⟩ | ⟨e, he, hne⟩
      · refine .inl ⟨q', a2, e', r', hb'.trans hb, hd.trans hd' (fun x hx => hx ▸ List.mem_cons_self) (fun x hx => List.mem_cons_of_mem _ hx), ?_, ?_⟩
        · intro x hx
          rw [List.mem_cons] at hx
          cases hx with
          | inl e => rw [e]; exact h2
          | inr hx =>
            obtain ⟨v, hv⟩ := h1' x hx
            exact ⟨v, hd.sub x v hv⟩
        · intro j
          rcases h2' j with e1 | ⟨e1, v, hv⟩
          · rw [e1]; exact h3 j
          · exact .inr ⟨e1, v, hd.sub j v hv⟩
      · exact .inr ⟨e, he, hne⟩
    · exact .inr ⟨e, by rw [he]; rfl, hne⟩

theorem read_inv {l : Slots α} {i : Nat} : (∃ v, Slots.read l i = .ok v ∧ l[i]? = some (some v)) ∨ Slots.read l i = .error .ub := by
  unfold Slots.read
  split
  · exact .inl ⟨_, rfl, by assumption⟩
  · exact .inr rfl

theorem destroyWith_outcome {S bs d n : Nat} (hbs : 0 < bs) {rank : Nat → Nat} (H : FreesAny S owns rank bs d n) {p : Pool α} {a : Abs α} (i : Nat) (h : RFrom bs d p a)
    (hr : ∀ i j, Owns owns a.object i j → rank j < rank i) (hn : rank i ≤ n) :
    Outcome owns bs d (fun c => c = i) a (fun a' => a'.entries i = some none ∧ (∃ v, a.object i = some v) ∧
      ∀ j, j ≠ i → a'.entries j = a.entries j ∨ (a'.entries j = none ∧ ∃ v, a.object j = some v)) (destroyWith owns (freeO S owns n) p (i / bs) (i % bs)) := by
  have hl := Nat.mod_lt i hbs
  by_cases hk : i / bs < p.blocks.length
  · have hb := List.getElem?_eq_getElem hk
    have hrd := rd_ok hk
    rcases read_inv (l := p.blocks[i / bs].memory) (i := i % bs) with ⟨v, ev, hv⟩ | e
    · have hi : a.entries i = some (some v) := by
        by_cases hd : i / bs < d
        · rw [h.raw _ _ hd hb, Slots.mk_get hl] at hv
          cases hv
        · obtain ⟨b, base, g1, g2, g3, g4⟩ := h.get (show d ≤ i / bs by omega) hk
          rw [hb] at g1
          cases g1
          rw [g4.memory, Slots.mk_get hl, index_split] at hv
          exact object_some.mp (Option.some.inj hv)
      have hv' := object_some.mpr hi
      obtain ⟨b, q, e1, e2, e3, r⟩ := h.destroy hbs hi
      have hm : ∀ j w, (a.set i (some none)).object j = some w → a.object j = some w := by
        intro j w hj
        rw [object_set] at hj
        split at hj
        · cases hj
        · exact hj
      rcases freeAll_outcome H (owns v) r (fun x y hxy => hr x y (hxy.mono hm)) (fun c hc => by have := hr i c ⟨v, hv', hc⟩; omega) with
        ⟨q', a', e', r', hb', hd', h1, h2⟩ | ⟨e, he, hne⟩
      · refine .inl ⟨q', a', ?_, r', hb', ⟨fun j w hj => hm j w (hd'.sub j w hj), ?_, ?_⟩, ?_, ⟨v, hv'⟩, ?_⟩
        · simp only [destroyWith, e1, ok_bind, e2, e3, e']
        · intro y w hy hy' j hj
          by_cases hyi : y = i
          · subst hyi
            rw [hv'] at hy
            cases hy
            obtain ⟨u, hu⟩ := h1 j hj
            exact ⟨u, hm j u hu⟩
          · obtain ⟨u, hu⟩ := hd'.owned y w (by rw [object_set, if_neg hyi]; exact hy) hy' j hj
            exact ⟨u, hm j u hu⟩
        · intro j w hj hj'
          refine ⟨i, rfl, ?_⟩
          by_cases hji : j = i
          · subst hji; exact .refl
          · obtain ⟨c, hc, hb⟩ := hd'.below j w (by rw [object_set, if_neg hji]; exact hj) hj'
            exact Below.trans (.step .refl ⟨v, hv', hc⟩) (hb.mono hm)
        · rcases h2 i with e | ⟨_, w, hw⟩
          · rw [e, Abs.set_same]
          · rw [object_set, if_pos rfl] at hw
            cases hw
        · intro j hj
          rcases h2 j with e | ⟨e, w, hw⟩
          · rw [e, Abs.set_other _ _ _ hj]; exact .inl rfl
          · exact .inr ⟨e, w, hm j w hw⟩
      · exact .inr ⟨e, by simp only [destroyWith, e1, ok_bind, e2, e3, he], hne⟩
    · exact .inr ⟨.ub, by simp only [destroyWith, hrd, ok_bind, e]; rfl, by simp⟩
  · exact .inr ⟨.ub, by simp only [destroyWith, rd_ub (Nat.not_lt.mp hk)]; rfl, by simp⟩

theorem nodiv_bind {β γ : Type} {x : M β} {f : β → M γ} (hx : x ≠ .error .diverge) (hf : ∀ b, x = .ok b → f b ≠ .error .diverge) : x >>= f ≠ .error .diverge := by
  cases x with
  | error e =>
    intro h
    have h' : (Except.error e : M γ) = .error .diverge := h
    cases h'
    exact hx rfl
  | ok b => exact hf b rfl

theorem nodiv_assert (c : Bool) : assert c ≠ .error .diverge := by cases c <;> simp [assert]

theorem nodiv_rd {β : Type} (l : List β) (i : Nat) : rd l i ≠ .error .diverge := by
  unfold rd; split <;> simp

theorem nodiv_pointer (S : Nat) (p : Pool α) (k l : Nat) : getAllocatedPointer S p k l ≠ .error .diverge := by
  unfold getAllocatedPointer Bitset.test
  refine nodiv_bind (nodiv_assert _) fun _ _ => nodiv_bind (nodiv_rd _ _) fun b _ => nodiv_bind ?_ fun _ _ => nodiv_bind (nodiv_assert _) fun _ _ => by simp
  refine nodiv_bind (nodiv_assert _) fun _ _ => nodiv_bind (nodiv_rd _ _) fun _ _ => nodiv_bind ?_ fun _ _ => by simp
  unfold shl
  refine nodiv_bind ?_ fun _ _ => by simp
  unfold guardUB
  split <;> simp

theorem freeO_outcome (S bs d : Nat) (hbs : 0 < bs) (rank : Nat → Nat) (n : Nat) : FreesAny S owns rank bs d n := by
  induction n with
  | zero => intro p a i _ _ hn; omega
  | succ n ih =>
    intro p a i h hr hn
    have h0 : (bs != 0) = true := by simp; omega
    cases hp : getAllocatedPointer S p (i / bs) (i % bs) with
    | error e =>
      refine .inr ⟨e, by simp only [freeO, h.size, h0, guardUB_true, ok_bind, hp]; rfl, ?_⟩
      intro he
      exact nodiv_pointer S p _ _ (he ▸ hp)
    | ok x =>
      rcases destroyWith_outcome hbs ih i h hr (by omega) with ⟨q, a1, e, r, hb, hd, h1, h2, h3⟩ | ⟨e, he, hne⟩
      · obtain ⟨q', e', r'⟩ := r.release hbs h1
        have hs : q.blockSize = bs := r.size
        have hobj : (a1.set i none).object = a1.object := by
          funext j
          by_cases hj : j = i
          · subst hj
            rw [object_none.mpr (.inl (Abs.set_same a1 j none)), object_none.mpr (.inr h1)]
          · simp only [Abs.object, Abs.set_other _ _ _ hj]
        refine .inl ⟨q', _, ?_, r', hb, ?_, ?_, h2, ?_⟩
        · simp only [freeO, h.size, h0, guardUB_true, ok_bind, hp, e, hs, e']
        · rw [hobj]; exact hd
        · rw [hobj]; exact object_none.mpr (.inr h1)
        · intro j
          by_cases hj : j = i
          · subst hj; exact .inr ⟨Abs.set_same _ _ _, h2⟩
          · rw [Abs.set_other _ _ _ hj]; exact h3 j hj
      · exact .inr ⟨e, by simp only [freeO, h.size, h0, guardUB_true, ok_bind, hp, he]; rfl, hne⟩

/-! ### Reset -/

/-- What is known when `Reset` comes to index `lo`: the objects before it are gone, and if the rest is destroyed in order then so is the whole. -/
structure Sweeping (owns : α → List Nat) (rank : Nat → Nat) (m : Nat → Option α) (lo : Nat) (a : Abs α) : Prop where
  rank : ∀ i j, Owns owns a.object i j → rank j < rank i
  before : ∀ j, j < lo → a.object j = none
  after : ∀ j, lo ≤ j → a.entries j ≠ some none
  sweeps : Sweeps owns a.object → Sweeps owns m

theorem Sweeping.skip {rank : Nat → Nat} {m : Nat → Option α} {lo hi : Nat} {a : Abs α} (h : Sweeping owns rank m lo a) (hle : lo ≤ hi)
    (hdead : ∀ j, lo ≤ j → j < hi → a.isLive j = false) : Sweeping owns rank m hi a := by
  refine ⟨h.rank, ?_, fun j hj => h.after j (by omega), h.sweeps⟩
  intro j hj
  by_cases hl : j < lo
  · exact h.before j hl
  · rw [object_none]
    exact .inl (isLive_false (hdead j (by omega) hj))

theorem Sweeping.without {rank : Nat → Nat} {m : Nat → Option α} {lo : Nat} {a : Abs α} (h : Sweeping owns rank m lo a) :
    Sweeping owns rank m lo (a.without (fun i => i < lo)) := by
  have hobj : (a.without (fun i => i < lo)).object = a.object := by
    funext j
    by_cases hj : j < lo
    · rw [h.before j hj]
      exact object_none.mpr (.inl (Abs.without_pos a (P := fun i => i < lo) hj))
    · simp only [Abs.object, Abs.without_neg a (P := fun i => i < lo) hj]
  refine ⟨by rw [hobj]; exact h.rank, by rw [hobj]; exact h.before, ?_, by rw [hobj]; exact h.sweeps⟩
  intro j hj
  rw [Abs.without_neg a (P := fun i => i < lo) (by omega)]
  exact h.after j hj

theorem destroyLoopO_outcome {S bs d n : Nat} (hbs : 0 < bs) {rank : Nat → Nat} (hn : ∀ i, rank i ≤ n) {m : Nat → Option α} (fuel : Nat) {p : Pool α} {a : Abs α}
    (h : RFrom bs d p a) (hd : d < p.blocks.length) {l : Nat} (hl : l < bs) (hp : Sweeping owns rank m (d * bs + l) a)
    (hfuel : bs - l < fuel) (H : FreesAny S owns rank bs d n) :
    (∃ q a', destroyLoopO S owns n d fuel (some l) p = .ok q ∧ RFrom bs d q a' ∧ a'.bases = a.bases ∧ Sweeping owns rank m ((d + 1) * bs) a') ∨
      ∃ e, destroyLoopO S owns n d fuel (some l) p = .error e ∧ e ≠ .diverge := by
  induction fuel generalizing p a l with
  | zero => omega
  | succ fuel ih =>
    have hout := destroyWith_outcome hbs H (d * bs + l) h hp.rank (hn _)
    rw [index_div hl, index_mod hl] at hout
    rcases hout with ⟨q, a1, e, r, hb, hdr, h1, h2, h3⟩ | ⟨e, he, hne⟩
    · have hi : a1.object (d * bs + l) = none := object_none.mpr (.inr h1)
      have hp' : Sweeping owns rank m (d * bs + l + 1) a1 := by
        refine ⟨fun i j hij => hp.rank i j (hij.mono hdr.sub), ?_, ?_, fun hs => hp.sweeps (.visit _ hp.before hdr hi hs)⟩
        · intro j hj
          by_cases hji : j = d * bs + l
          · rw [hji]; exact hi
          · cases ho : a1.object j with
            | none => rfl
            | some v =>
              have := hdr.sub j v ho
              rw [hp.before j (by omega)] at this
              cases this
        · intro j hj hcon
          rcases h3 j (by omega) with e | ⟨e, _⟩
          · rw [e] at hcon; exact hp.after j (by omega) hcon
          · rw [e] at hcon; cases hcon
      have hd' : d < q.blocks.length := by rw [r.len, hb]; rw [h.len] at hd; exact hd
      obtain ⟨b, base, g1, g2, g3, g4⟩ := r.get (Nat.le_refl d) hd'
      obtain ⟨f, ef, f1, f2⟩ := Has.findNext g4.occupied hl
      simp only [destroyLoopO, e, ok_bind, g2, ef]
      cases f with
      | none =>
        obtain ⟨fu, rfl⟩ : ∃ fu, fuel = fu + 1 := ⟨fuel - 1, by omega⟩
        refine .inl ⟨q, _, rfl, r, hb, hp'.skip ?_ ?_⟩
        · rw [Nat.succ_mul]; omega
        · intro j h1 h2
          rw [Nat.succ_mul] at h2
          have := f2 rfl (j - d * bs) (by omega) (by omega)
          rw [show d * bs + (j - d * bs) = j by omega] at this
          exact this
      | some l' =>
        obtain ⟨c1, c2, c3, c4⟩ := f1 l' rfl
        rcases ih r hd' c2 (hp'.skip (by omega) (by
          intro j h1 h2
          have := c4 (j - d * bs) (by omega) (by omega)
          rw [show d * bs + (j - d * bs) = j by omega] at this
          exact this)) (by omega) with ⟨q', a', e', r', hb', hp''⟩ | ⟨e, he, hne⟩
        · exact .inl ⟨q', a', e', r', hb'.trans hb, hp''⟩
        · exact .inr ⟨e, he, hne⟩
    · exact .inr ⟨e, by simp only [destroyLoopO, he]; rfl, hne⟩

theorem resetBlockO_outcome {S bs d n : Nat} (h2 : 2 ≤ bs) {rank : Nat → Nat} (hn : ∀ i, rank i ≤ n) {m : Nat → Option α} {p : Pool α} {a : Abs α} (h : RFrom bs d p a)
    (hd : d < p.blocks.length) (hp : Sweeping owns rank m (d * bs) a) :
    (∃ q a', resetBlockO S owns n d p = .ok q ∧ RFrom bs (d + 1) q a' ∧ a'.bases = a.bases ∧ Sweeping owns rank m ((d + 1) * bs) a') ∨
      ∃ e, resetBlockO S owns n d p = .error e ∧ e ≠ .diverge := by
  have hbs : 0 < bs := by omega
  obtain ⟨b, base, g1, g2, g3, g4⟩ := h.get (Nat.le_refl d) hd
  by_cases hc : b.count = 0
  · have hdead : ∀ j, j < bs → (a.entries (d * bs + j)).isSome = false := countP_none.mp (g4.count.symm.trans hc)
    have hp' : Sweeping owns rank m ((d + 1) * bs) a := hp.skip (Nat.mul_le_mul_right bs (by omega)) (by
      intro j h1 h3
      rw [Nat.succ_mul] at h3
      have := hdead (j - d * bs) (by omega)
      rw [show d * bs + (j - d * bs) = j by omega] at this
      exact this)
    refine .inl ⟨p, _, ?_, h.advance g1 ?_, rfl, hp'.without⟩
    · simp only [resetBlockO, g2, ok_bind, hc, if_true, pure_ok]
    · rw [g4.memory]
      apply Slots.mk_congr
      intro j hj
      have := hdead j hj
      cases hh : a.entries (d * bs + j) <;> simp_all
  · obtain ⟨f, ef, f1, f2⟩ := Has.findFirst g4.occupied
    cases f with
    | none =>
      exact absurd (g4.count.trans (countP_none.mpr (f2 rfl))) hc
    | some l =>
      obtain ⟨c1, c2, c3⟩ := f1 l rfl
      rcases destroyLoopO_outcome (S := S) hbs hn (bs + 1) h hd c1 (hp.skip (by omega) (by
        intro j h1 h3
        have := c3 (j - d * bs) (by omega)
        rw [show d * bs + (j - d * bs) = j by omega] at this
        exact this)) (by omega) (freeO_outcome S bs d hbs rank n) with ⟨q, a', e, r, hb', hp'⟩ | ⟨e, he, hne⟩
      · have hd' : d < q.blocks.length := by rw [r.len, hb']; rw [h.len] at hd; exact hd
        obtain ⟨b', base', k1, k2, k3, k4⟩ := r.get (Nat.le_refl d) hd'
        obtain ⟨fr, efr, hfr⟩ := Has.set k4.free (show 1 < bs by omega) false
        obtain ⟨oc, eoc, hoc⟩ := Has.set k4.occupied hbs false
        refine .inl ⟨⟨q.blockSize, q.blocks.set d ⟨0, b'.base, b'.memory, fr, oc⟩⟩, a'.without (fun i => i < (d + 1) * bs), ?_, ?_, hb', hp'.without⟩
        · simp only [resetBlockO, g2, ok_bind, hc, if_false, ef, g4.occupied.size, e, k2, Bitset.reset, efr, eoc, wr_ok hd', pure_ok]
        · have hraw : b'.memory = Slots.mk bs (fun _ => none) := by
            rw [k4.memory]
            apply Slots.mk_congr
            intro j hj
            exact hp'.before (d * bs + j) (by rw [Nat.succ_mul]; omega)
          have ha := r.advance k1 hraw
          refine ⟨ha.size, by simpa using ha.len, ?_, ?_, ha.bound⟩
          · intro k c base'' hk j1 j2
            simp only at j1
            rw [List.getElem?_set, if_neg (by omega)] at j1
            exact ha.block k c base'' hk j1 j2
          · intro k c hk j1
            simp only at j1
            rw [List.getElem?_set] at j1
            by_cases hkd : d = k
            · rw [if_pos hkd, if_pos hd'] at j1
              cases j1
              exact hraw
            · rw [if_neg hkd] at j1
              exact ha.raw k c hk j1
      · exact .inr ⟨e, by simp only [resetBlockO, g2, ok_bind, hc, if_false, ef, g4.occupied.size, he]; rfl, hne⟩

theorem forUp_outcome {σ : Type} (I : Nat → σ → Prop) {lo n : Nat} {f : Nat → σ → M σ} {s : σ} (h0 : I 0 s)
    (hstep : ∀ k s, k < n → I k s → (∃ s', f (lo + k) s = .ok s' ∧ I (k + 1) s') ∨ ∃ e, f (lo + k) s = .error e ∧ e ≠ .diverge) :
    (∃ s', forUp lo n f s = .ok s' ∧ I n s') ∨ ∃ e, forUp lo n f s = .error e ∧ e ≠ .diverge := by
  induction n generalizing lo s I with
  | zero => exact .inl ⟨s, rfl, h0⟩
  | succ n ih =>
    rcases hstep 0 s (by omega) h0 with ⟨s1, e1, i1⟩ | ⟨e, he, hne⟩
    · rw [Nat.add_zero] at e1
      rcases ih (fun k => I (k + 1)) (lo := lo + 1) i1 (by
        intro k s hk hI
        have := hstep (k + 1) s (by omega) hI
        rwa [show lo + (k + 1) = lo + 1 + k by omega] at this) with ⟨s2, e2, i2⟩ | ⟨e, he, hne⟩
      · exact .inl ⟨s2, by simp only [forUp, e1]; exact e2, i2⟩
      · exact .inr ⟨e, by simp only [forUp, e1]; exact he, hne⟩
    · rw [Nat.add_zero] at he
      exact .inr ⟨e, by simp only [forUp, he], hne⟩

/-- The destructor succeeds on trees whose roots come first, or fails. -/
theorem destructorO_outcome {S bs n : Nat} (h2 : 2 ≤ bs) {rank : Nat → Nat} (hn : ∀ i, rank i ≤ n) {p : Pool α} {a : Abs α} (h : RFrom bs 0 p a)
    (hrank : ∀ i j, Owns owns a.object i j → rank j < rank i) (hobj : ∀ i, a.entries i ≠ some none) :
    (Sweeps owns a.object) ∨ ∃ e, destructorO S owns n p = .error e ∧ e ≠ .diverge := by
  rcases forUp_outcome (lo := 0) (n := p.blocks.length) (s := p) (f := resetBlockO S owns n)
    (fun k q => ∃ a' : Abs α, RFrom bs k q a' ∧ a'.bases = a.bases ∧ Sweeping owns rank a.object (k * bs) a')
    ⟨a, h, rfl, hrank, by intro j hj; omega, fun j _ => hobj j, id⟩ (by
      rintro k q hk ⟨a', r, hb, hp⟩
      rw [Nat.zero_add]
      rcases resetBlockO_outcome (S := S) h2 hn r (by rw [r.len, hb, ← h.len]; exact hk) hp with ⟨q', a'', e, r', hb', hp'⟩ | he
      · exact .inl ⟨q', e, a'', r', hb'.trans hb, hp'⟩
      · exact .inr he) with ⟨q, e, a', r, hb, hp⟩ | ⟨e, he, hne⟩
  · refine .inl (hp.sweeps (.done fun i => ?_))
    cases ho : a'.object i with
    | none => rfl
    | some v =>
      have hlive : a'.isLive i = true := by simp [Abs.isLive, object_some.mp ho]
      obtain ⟨b1, b2⟩ := r.bound i hlive
      rw [Abs.capacity, hb, ← h.len] at b2
      omega
  · exact .inr ⟨e, by simp only [destructorO, resetO, he]; rfl, hne⟩

end Verif.MemoryPool
