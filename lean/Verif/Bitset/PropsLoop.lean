import Verif.Bitset.ModelLoop
import Verif.Bitset.PropsObs
import Verif.Bitset.PropsHistory

/-!
# C134: loops over the set bits may change the bitset
-/

namespace Verif.Bitset
open Verif.Cpp

variable {w : Nat}

/-! ## Specification, on sequences of booleans -/

/-- The variables after some history of allowed calls, and the sequences of booleans they show. -/
def Reached (σ : Nat → Bitset w) (τ : Nat → List Bool) : Prop :=
  ∃ ops : List (Op w), ValidHistory (fun _ => []) ops ∧ run (fun _ => empty) ops = .ok σ ∧ specRun (fun _ => []) ops = τ

/-- The first index from `k` on whose boolean is true. -/
def nextSet (l : List Bool) (k : Nat) : Option Nat := (List.range l.length).find? (fun i => decide (k ≤ i) && l.getD i false)

/-- The loop on sequences: from each index to the next greater one that is set when the body has been executed. -/
def visitFrom (body : List Nat → List (Op w)) (d : Nat) : Nat → List Nat → Option Nat → (Nat → List Bool) → (Nat → List Bool) × List Nat × Bool
  | 0, seen, _, τ => (τ, seen, false)
  | _ + 1, seen, none, τ => (τ, seen, true)
  | n + 1, seen, some i, τ =>
    let τ' := specRun τ (body (seen ++ [i]))
    visitFrom body d n (seen ++ [i]) (nextSet (τ' d) (i + 1)) τ'

def visit (body : List Nat → List (Op w)) (d n : Nat) (τ : Nat → List Bool) : (Nat → List Bool) × List Nat × Bool := visitFrom body d n [] (nextSet (τ d) 0) τ

/-- The calls of the bodies are allowed, and no body leaves the bitset so short that the current index is not below its size. -/
def AllowedFrom (body : List Nat → List (Op w)) (d : Nat) : Nat → List Nat → Option Nat → (Nat → List Bool) → Prop
  | 0, _, _, _ => True
  | _ + 1, _, none, _ => True
  | n + 1, seen, some i, τ =>
    let τ' := specRun τ (body (seen ++ [i]))
    ValidHistory τ (body (seen ++ [i])) ∧ i < (τ' d).length ∧ AllowedFrom body d n (seen ++ [i]) (nextSet (τ' d) (i + 1)) τ'

def Allowed (body : List Nat → List (Op w)) (d n : Nat) (τ : Nat → List Bool) : Prop := AllowedFrom body d n [] (nextSet (τ d) 0) τ

/-- The calls made by the bodies for the indices `seen`, one body after the other. -/
def made (body : List Nat → List (Op w)) (seen : List Nat) : List (Op w) := (List.range seen.length).flatMap (fun i => body (seen.take (i + 1)))

/-! ## Lemmas -/

theorem nextSet_eq {l : List Bool} {k : Nat} {r : Option Nat} (h : IsFirstSet l k r) : r = nextSet l k := by
  symm
  rcases h with ⟨rfl, h⟩ | ⟨i, rfl, h1, h2, h3⟩
  · rw [nextSet, List.find?_eq_none]
    intro i _
    by_cases hk : k ≤ i
    · rw [h i hk]; simp
    · simp [hk]
  · have hi : i < l.length := by
      by_contra hc
      rw [List.getD_eq_default _ _ (by omega)] at h2
      cases h2
    rw [nextSet, List.find?_eq_some_iff_getElem]
    refine ⟨by rw [h2]; simp [h1], i, by simpa using hi, by simp, ?_⟩
    intro j hj
    simp only [List.getElem_range]
    by_cases hk : k ≤ j
    · rw [h3 j hk hj]; simp
    · simp [hk]

theorem nextSet_spec (l : List Bool) (k : Nat) : IsFirstSet l k (nextSet l k) := by
  cases h : nextSet l k with
  | none =>
    refine Or.inl ⟨rfl, fun i hk => ?_⟩
    rw [nextSet, List.find?_eq_none] at h
    by_cases hi : i < l.length
    · have := h i (by simpa using hi)
      simpa [hk] using this
    · rw [List.getD_eq_default _ _ (by omega)]
  | some i =>
    rw [nextSet, List.find?_eq_some_iff_getElem] at h
    obtain ⟨h1, n, hn, h2, h3⟩ := h
    simp only [List.getElem_range] at h2 h3
    subst h2
    simp only [Bool.and_eq_true, decide_eq_true_eq] at h1
    refine Or.inr ⟨n, rfl, h1.1, h1.2, fun j hk hj => ?_⟩
    have := h3 j hj
    simpa [hk] using this

theorem loopFrom_ok (h : MathUtils.IsWidth w) (body : List Nat → List (Op w)) (d : Nat) (n : Nat) : ∀ (seen : List Nat) (pos : Option Nat) (σ : Nat → Bitset w) (τ : Nat → List Bool),
    (∀ k, HasL (σ k) (τ k)) → AllowedFrom body d n seen pos τ →
    ∃ σ', loopFrom body d n seen pos σ = .ok (σ', (visitFrom body d n seen pos τ).2) ∧ ∀ k, HasL (σ' k) ((visitFrom body d n seen pos τ).1 k) := by
  induction n with
  | zero => intro seen pos σ τ hσ _; exact ⟨σ, rfl, hσ⟩
  | succ n ih =>
    intro seen pos σ τ hσ hok
    cases pos with
    | none => exact ⟨σ, rfl, hσ⟩
    | some i =>
      obtain ⟨h1, h2, h3⟩ := hok
      obtain ⟨σ1, e1, hσ1⟩ := run_ok (.of_isWidth h) _ σ τ hσ h1
      have hL := hσ1 d
      obtain ⟨r, e2, a1, a2⟩ := findNext_ok h (σ1 d) hL.wf i (by rw [hL.size]; exact h2)
      simp only [hL.bit] at a1 a2
      have hr : IsFirstSet (specRun τ (body (seen ++ [i])) d) (i + 1) r := by
        cases r with
        | none => exact Or.inl ⟨rfl, a2 rfl⟩
        | some i => exact Or.inr ⟨i, rfl, a1 i rfl⟩
      rw [nextSet_eq hr] at e2
      obtain ⟨σ2, e3, hσ2⟩ := ih _ _ σ1 _ hσ1 h3
      exact ⟨σ2, by simp only [loopFrom, e1, ok_bind, preIncrement, e2, e3, visitFrom], hσ2⟩

theorem Reached.hasL (h : IsBlockWidth w) {σ : Nat → Bitset w} {τ : Nat → List Bool} (hr : Reached σ τ) (k : Nat) : HasL (σ k) (τ k) := by
  obtain ⟨ops, hv, e, rfl⟩ := hr
  obtain ⟨σ', e', hσ'⟩ := run_ok h ops _ _ (fun _ => HasL.empty w) hv
  rw [e'] at e
  cases e
  exact hσ' k

/-- C134: a loop over the set bits of a bitset whose body makes any allowed calls on this and other bitsets, as long as the bitset keeps the current index, meets no failed
assertion and no undefined behaviour.  It goes from each index to the least greater one that is set when the body has been executed; afterwards the bitsets show what the
calls of the bodies give. -/
theorem C134_loop_partial (h : MathUtils.IsWidth w) {σ : Nat → Bitset w} {τ : Nat → List Bool} (hr : Reached σ τ) (body : List Nat → List (Op w)) (d n : Nat)
    (hok : Allowed body d n τ) : ∃ σ', loopBits body d n σ = .ok (σ', (visit body d n τ).2) ∧ ∀ k, Shows (σ' k) ((visit body d n τ).1 k) := by
  have hL := hr.hasL (.of_isWidth h)
  obtain ⟨r, e, h1, h2⟩ := findFirstFrom_ok h (σ d) 0
  simp only [Nat.mul_zero, (hL d).bit] at h1 h2
  have hf : IsFirstSet (τ d) 0 r := by
    cases r with
    | none => exact Or.inl ⟨rfl, h2 rfl⟩
    | some i => exact Or.inr ⟨i, rfl, h1 i rfl⟩
  rw [nextSet_eq hf] at e
  obtain ⟨σ', e', hσ'⟩ := loopFrom_ok h body d n [] _ σ τ hL hok
  refine ⟨σ', ?_, fun k => (hσ' k).shows (.of_isWidth h)⟩
  rw [loopBits, findFirst, e, ok_bind, e']
  rfl

theorem specRun_append (τ : Nat → List Bool) (a b : List (Op w)) : specRun τ (a ++ b) = specRun (specRun τ a) b := by
  induction a generalizing τ with
  | nil => rfl
  | cons op a ih => exact ih _

theorem made_append (body : List Nat → List (Op w)) (seen : List Nat) (i : Nat) : made body (seen ++ [i]) = made body seen ++ body (seen ++ [i]) := by
  simp only [made, List.length_append, List.length_cons, List.length_nil, List.range_succ, List.flatMap_append, List.flatMap_cons, List.flatMap_nil, List.append_nil]
  congr 1
  · rw [List.flatMap_def, List.flatMap_def]
    congr 1
    apply List.map_congr_left
    intro j hj
    rw [List.mem_range] at hj
    rw [List.take_append_of_le_length (by omega)]
  · rw [List.take_of_length_le (by simp)]

/-- What holds at each test of the condition. -/
structure Trail (body : List Nat → List (Op w)) (d : Nat) (τ₀ : Nat → List Bool) (seen : List Nat) (τ : Nat → List Bool) (low : Nat) : Prop where
  store : specRun τ₀ (made body seen) = τ
  sorted : seen.Pairwise (· < ·)
  below : ∀ i ∈ seen, i < low
  set : ∀ m (hm : m < seen.length), (specRun τ₀ (made body (seen.take m)) d).getD seen[m] false = true
  fits : low ≤ (τ d).length
  missed : ∀ j < low, j ∉ seen → ∃ m ≤ seen.length, (specRun τ₀ (made body (seen.take m)) d).getD j false = false

theorem visitFrom_trail (body : List Nat → List (Op w)) (d : Nat) (τ₀ : Nat → List Bool) (n : Nat) : ∀ (seen : List Nat) (low : Nat) (τ : Nat → List Bool),
    AllowedFrom body d n seen (nextSet (τ d) low) τ → Trail body d τ₀ seen τ low →
    let r := visitFrom body d n seen (nextSet (τ d) low) τ
    specRun τ₀ (made body r.2.1) = r.1 ∧ r.2.1.Pairwise (· < ·) ∧
      (∀ m (hm : m < r.2.1.length), (specRun τ₀ (made body (r.2.1.take m)) d).getD r.2.1[m] false = true) ∧
      (r.2.2 = true → ∀ j, j ∉ r.2.1 → ∃ m ≤ r.2.1.length, (specRun τ₀ (made body (r.2.1.take m)) d).getD j false = false) ∧
      (r.2.2 = false → r.2.1.length = seen.length + n ∧ ∀ i ∈ r.2.1, i < (r.1 d).length) := by
  induction n with
  | zero =>
    intro seen low τ _ ht
    refine ⟨ht.store, ht.sorted, ht.set, (by intro hc; cases hc), fun _ => ⟨rfl, fun i hi => ?_⟩⟩
    have := ht.below i hi
    have := ht.fits
    simp only [visitFrom]
    omega
  | succ n ih =>
    intro seen low τ hok ht
    have hspec := nextSet_spec (τ d) low
    cases hp : nextSet (τ d) low with
    | none =>
      rw [hp] at hspec
      rcases hspec with ⟨_, hnone⟩ | ⟨i, hc, _⟩
      · refine ⟨ht.store, ht.sorted, ht.set, fun _ j hj => ?_, by intro hc; cases hc⟩
        simp only [visitFrom] at hj ⊢
        by_cases hlow : j < low
        · exact ht.missed j hlow hj
        · refine ⟨seen.length, Nat.le_refl _, ?_⟩
          rw [List.take_length, ht.store]
          exact hnone j (by omega)
      · cases hc
    | some i =>
      rw [hp] at hspec hok
      obtain ⟨h1, h2, h3⟩ := hok
      rcases hspec with ⟨hc, _⟩ | ⟨i', he, hi1, hi2, hi3⟩
      · cases hc
      · cases he
        have ht' : Trail body d τ₀ (seen ++ [i]) (specRun τ (body (seen ++ [i]))) (i + 1) := by
          refine ⟨?_, ?_, ?_, ?_, h2, ?_⟩
          · rw [made_append, specRun_append, ht.store]
          · rw [List.pairwise_append]
            refine ⟨ht.sorted, by simp, fun a ha b hb => ?_⟩
            simp only [List.mem_singleton] at hb
            have := ht.below a ha
            omega
          · intro a ha
            simp only [List.mem_append, List.mem_singleton] at ha
            rcases ha with ha | rfl
            · have := ht.below a ha; omega
            · omega
          · intro m hm
            simp only [List.length_append, List.length_cons, List.length_nil] at hm
            rw [List.take_append_of_le_length (by omega)]
            by_cases hlt : m < seen.length
            · rw [List.getElem_append_left hlt]
              exact ht.set m hlt
            · have : m = seen.length := by omega
              subst this
              rw [List.take_length, ht.store]
              simpa using hi2
          · intro j hj hn
            simp only [List.mem_append, List.mem_singleton, not_or] at hn
            by_cases hlow : j < low
            · obtain ⟨m, hm, e⟩ := ht.missed j hlow hn.1
              exact ⟨m, by simp; omega, by rw [List.take_append_of_le_length hm]; exact e⟩
            · refine ⟨seen.length, by simp, ?_⟩
              rw [List.take_append_of_le_length (Nat.le_refl _), List.take_length, ht.store]
              exact hi3 j (by omega) (by omega)
        have := ih (seen ++ [i]) (i + 1) _ h3 ht'
        simp only [List.length_append, List.length_cons, List.length_nil] at this
        simp only [visitFrom]
        refine ⟨this.1, this.2.1, this.2.2.1, this.2.2.2.1, fun hf => ⟨?_, (this.2.2.2.2 hf).2⟩⟩
        have := (this.2.2.2.2 hf).1
        omega

theorem length_le_of_sorted {l : List Nat} (h : l.Pairwise (· < ·)) {N : Nat} (hb : ∀ i ∈ l, i < N) : l.length ≤ N := by
  have key : ∀ (l : List Nat) (a : Nat), l.Pairwise (· < ·) → (∀ i ∈ l, a ≤ i ∧ i < N) → l.length ≤ N - a := by
    intro l
    induction l with
    | nil => simp
    | cons x l ih =>
      intro a hp hb
      rw [List.pairwise_cons] at hp
      have h1 := hb x (by simp)
      have h2 := ih (x + 1) hp.2 (fun i hi => ⟨hp.1 i hi, (hb i (by simp [hi])).2⟩)
      simp only [List.length_cons]
      omega
  exact key l 0 h (fun i hi => ⟨Nat.zero_le _, hb i hi⟩)

/-- C134: of such a loop: no index is seen twice, and each one is set when it is seen.  If the loop has ended, an index that was not seen was reset before, or was not set at the
beginning (so all indices that are set from the beginning on and stay so are seen).  A loop that has not ended after `n` indices belongs to a bitset with at least `n`
bits. -/
theorem C134_visits_partial (h : MathUtils.IsWidth w) {σ : Nat → Bitset w} {τ : Nat → List Bool} (hr : Reached σ τ) (body : List Nat → List (Op w)) (d n : Nat)
    (hok : Allowed body d n τ) {σ' : Nat → Bitset w} {seen : List Nat} {ended : Bool} (e : loopBits body d n σ = .ok (σ', seen, ended)) :
    (∀ k, Shows (σ' k) (specRun τ (made body seen) k)) ∧ seen.Pairwise (· < ·) ∧
      (∀ m (hm : m < seen.length), (specRun τ (made body (seen.take m)) d).getD seen[m] false = true) ∧
      (ended = true → ∀ j, (∀ m ≤ seen.length, (specRun τ (made body (seen.take m)) d).getD j false = true) → j ∈ seen) ∧
      (ended = false → seen.length = n ∧ n ≤ getSize (σ' d)) := by
  obtain ⟨σ'', e', hs⟩ := C134_loop_partial h hr body d n hok
  rw [e'] at e
  injection e with e
  obtain ⟨rfl, hse⟩ := Prod.mk.inj e
  have ht := visitFrom_trail body d τ n [] 0 τ hok ⟨rfl, List.Pairwise.nil, by simp, by simp, Nat.zero_le _, by simp⟩
  obtain ⟨h1, h2, h3, h4, h5⟩ := ht
  have hse' : (visitFrom body d n [] (nextSet (τ d) 0) τ).2 = (seen, ended) := hse
  simp only [hse'] at h1 h2 h3 h4 h5
  have hs' : ∀ k, Shows (σ'' k) (specRun τ (made body seen) k) := by
    intro k
    rw [h1]
    exact hs k
  refine ⟨hs', h2, h3, fun he j hj => ?_, fun he => ?_⟩
  · by_contra hn
    obtain ⟨m, hm, hc⟩ := h4 he j hn
    rw [hj m hm] at hc
    cases hc
  · obtain ⟨a1, a2⟩ := h5 he
    have a3 := length_le_of_sorted h2 a2
    have a4 := (hs d).1
    refine ⟨by simpa using a1, ?_⟩
    rw [a4]
    change n ≤ ((visitFrom body d n [] (nextSet (τ d) 0) τ).1 d).length
    simp only [List.length_nil, Nat.zero_add] at a1
    omega

/-- C134: a loop whose bodies never make the bitset longer than `N` ends. -/
theorem C134_ends_partial (h : MathUtils.IsWidth w) {σ : Nat → Bitset w} {τ : Nat → List Bool} (hr : Reached σ τ) (body : List Nat → List (Op w)) (d N : Nat)
    (hlen : ∀ seen, (specRun τ (made body seen) d).length ≤ N) {n : Nat} (hn : N < n) (hok : Allowed body d n τ) :
    ∃ σ' seen, loopBits body d n σ = .ok (σ', seen, true) := by
  obtain ⟨σ', e, _⟩ := C134_loop_partial h hr body d n hok
  obtain ⟨seen, hs⟩ : ∃ seen, seen = (visit body d n τ).2.1 := ⟨_, rfl⟩
  cases hb : (visit body d n τ).2.2 with
  | true => exact ⟨σ', seen, by rw [e, hs, ← hb]⟩
  | false =>
    have e' : loopBits body d n σ = .ok (σ', seen, false) := by rw [e, hs, ← hb]
    obtain ⟨h1, _, _, _, h5⟩ := C134_visits_partial h hr body d n hok e'
    have := (h5 rfl).2
    have h6 := (h1 d).1
    have := hlen seen
    omega

/-- C134, violated: a body that leaves the bitset no longer than the current index makes the loop fail its assertion: for every bitset with a set bit, `Clear` and any `Resize`
to at most the index of that bit. -/
theorem C134_shrink_violated (h : MathUtils.IsWidth w) {σ : Nat → Bitset w} {τ : Nat → List Bool} (hr : Reached σ τ) (d n i : Nat) (hi : nextSet (τ d) 0 = some i)
    (m : Nat) (hm : m ≤ i) (v : Bool) :
    loopBits (fun _ => [.clear d]) d (n + 1) σ = .error .assert ∧ loopBits (fun _ => [.resize d m v]) d (n + 1) σ = .error .assert := by
  have hL := hr.hasL (.of_isWidth h)
  obtain ⟨r, e, h1, h2⟩ := findFirstFrom_ok h (σ d) 0
  simp only [Nat.mul_zero, (hL d).bit] at h1 h2
  have hf : IsFirstSet (τ d) 0 r := by
    cases r with
    | none => exact Or.inl ⟨rfl, h2 rfl⟩
    | some i => exact Or.inr ⟨i, rfl, h1 i rfl⟩
  rw [nextSet_eq hf, hi] at e
  have key : ∀ op : Op w, op.Valid τ → ((op.spec τ) d).length ≤ i → loopBits (fun _ => [op]) d (n + 1) σ = .error .assert := by
    intro op hv hle
    obtain ⟨σ1, e1, hσ1⟩ := run_ok (.of_isWidth h) [op] σ τ hL ⟨hv, trivial⟩
    have hsz := (hσ1 d).size
    simp only [specRun] at hsz
    rw [loopBits, findFirst, e, ok_bind, loopFrom, e1, ok_bind, preIncrement, findNext]
    have : ¬ i < (σ1 d).bitCount := by omega
    simp [assert, this]
  refine ⟨key _ trivial (by simp [Op.spec, Op.specResult, Op.target, upd]), key _ trivial ?_⟩
  simp only [Op.spec, Op.specResult, Op.target, upd, if_true, Seq.resize, List.length_append, List.length_take, List.length_replicate]
  have hspec := nextSet_spec (τ d) 0
  rw [hi] at hspec
  rcases hspec with ⟨hc, _⟩ | ⟨i', he, _, hset, _⟩
  · cases hc
  · cases he
    have hlt : i < (τ d).length := by
      by_contra hc
      rw [List.getD_eq_default _ _ (by omega)] at hset
      cases hset
    omega

/-- The sieve: over 20 bits from 2 on, the body resets the multiples of the current index; the primes are seen. -/
def sieve : List Nat → List (Op 8) := fun seen =>
  match seen.getLast? with
  | none => []
  | some p => ((List.range 20).filter (fun j => decide (p < j) && j % p == 0)).map (fun j => Op.reset 0 j)

example : Reached (w := 8) (fun k => if k = 0 then ⟨[0xFC#8, 0xFF#8, 0x0F#8], 20⟩ else empty) (fun k => if k = 0 then false :: false :: List.replicate 18 true else []) := by
  refine ⟨[.ofSize 0 20 true, .reset 0 0, .reset 0 1], ?_, ?_, ?_⟩
  · simp [ValidHistory, Op.Valid, Op.spec, Op.specResult, Op.target, upd]
  · have h1 : (Bitset.ofSize 20 true : M (Bitset 8)) = .ok ⟨[0xFF#8, 0xFF#8, 0x0F#8], 20⟩ := by decide +kernel
    have h2 : Bitset.reset (⟨[0xFF#8, 0xFF#8, 0x0F#8], 20⟩ : Bitset 8) 0 = .ok ⟨[0xFE#8, 0xFF#8, 0x0F#8], 20⟩ := by decide +kernel
    have h3 : Bitset.reset (⟨[0xFE#8, 0xFF#8, 0x0F#8], 20⟩ : Bitset 8) 1 = .ok ⟨[0xFC#8, 0xFF#8, 0x0F#8], 20⟩ := by decide +kernel
    simp only [run, Op.exec, Op.result, Op.target, h1, ok_bind, upd, if_true, h2, h3, pure, Except.pure]
    congr 1
    funext k
    by_cases hk : k = 0 <;> simp [hk, upd]
  · funext k
    by_cases hk : k = 0 <;> simp [specRun, Op.spec, Op.specResult, Op.target, upd, hk, List.replicate]

theorem resets_ok {L : Nat} (ops : List (Op 8)) : ∀ τ : Nat → List Bool, (τ 0).length = L → (∀ o ∈ ops, ∃ j < L, o = .reset 0 j) →
    ValidHistory τ ops ∧ (specRun τ ops 0).length = L := by
  induction ops with
  | nil => intro τ h _; exact ⟨trivial, h⟩
  | cons o ops ih =>
    intro τ h ho
    obtain ⟨j, hj, rfl⟩ := ho o (by simp)
    obtain ⟨h1, h2⟩ := ih ((Op.reset 0 j : Op 8).spec τ) (by simp [Op.spec, Op.specResult, Op.target, upd, h]) (fun o ho' => ho o (by simp [ho']))
    exact ⟨⟨by simp only [Op.Valid]; omega, h1⟩, h2⟩

theorem sieve_allowed (n : Nat) : ∀ (seen : List Nat) (low : Nat) (τ : Nat → List Bool), (τ 0).length = 20 → AllowedFrom sieve 0 n seen (nextSet (τ 0) low) τ := by
  induction n with
  | zero => intro _ _ _ _; trivial
  | succ n ih =>
    intro seen low τ hl
    cases hp : nextSet (τ 0) low with
    | none => trivial
    | some i =>
      have hi : i < 20 := by
        rcases nextSet_spec (τ 0) low with ⟨hc, _⟩ | ⟨i', he, _, hset, _⟩
        · rw [hp] at hc; cases hc
        · rw [hp] at he
          cases he
          by_contra hc
          rw [List.getD_eq_default _ _ (by omega)] at hset
          cases hset
      obtain ⟨h1, h2⟩ := resets_ok (L := 20) (sieve (seen ++ [i])) τ hl (by
        intro o ho
        simp only [sieve, List.getLast?_append, List.getLast?_singleton, Option.some_or, List.mem_map, List.mem_filter, List.mem_range] at ho
        obtain ⟨j, ⟨hj, _⟩, rfl⟩ := ho
        exact ⟨j, hj, rfl⟩)
      exact ⟨h1, by omega, ih _ _ _ h2⟩

example (n : Nat) : Allowed sieve 0 n (fun k => if k = 0 then false :: false :: List.replicate 18 true else []) := by
  unfold Allowed
  exact sieve_allowed n [] 0 (fun k => if k = 0 then false :: false :: List.replicate 18 true else []) (by simp)

example : (visit sieve 0 30 (fun k => if k = 0 then false :: false :: List.replicate 18 true else [])).2 = ([2, 3, 5, 7, 11, 13, 17, 19], true) := by decide +kernel

end Verif.Bitset
