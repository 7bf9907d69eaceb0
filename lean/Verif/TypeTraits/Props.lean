import Verif.TypeTraits.Model

/-!
# C144: visiting a variant with `Overloaded` calls the handler of the alternative
-/

namespace Verif.TypeTraits

variable {conv : Nat → Nat → Option Nat}

/-- Of two handlers at most one is better. -/
theorem better_asymm (a : Arg) (x y : Param) (h : better conv a x y = true) : better conv a y x = false := by
  unfold better at h ⊢
  split at h
  · rename_i cx cy hx hy
    simp only [hx, hy]
    have hb : betterConversion a cx cy = true → betterConversion a cy cx = false := by
      intro hb
      cases cx with
      | same bx => cases cy with
        | same b' =>
          cases bx <;> cases b' <;> simp_all [betterConversion]
          rcases hb with hb | hb <;> simp_all
        | other => rfl
      | other r => cases cy with
        | same => simp [betterConversion] at hb
        | other s => simp [betterConversion] at hb ⊢; omega
    cases h1 : betterConversion a cx cy with
    | true => simp [hb h1]
    | false =>
      cases h2 : betterConversion a cy cx with
      | true => simp [h1, h2] at h
      | false =>
        simp only [h1, h2, Bool.false_or, Bool.not_false, Bool.true_and] at h ⊢
        cases x <;> cases y <;> simp_all [Param.isGeneric, moreSpecialised]
  · cases h

/-- The handler called is one of them that can be called, and better than all others that can be called; it is called whenever there is such a one. -/
theorem select_iff (hs : Overloaded) (a : Arg) (i : Nat) :
    hs.select conv a = some i ↔ ∃ p, (i, p) ∈ hs ∧ (convert conv a p).isSome = true ∧
      ∀ h ∈ hs, h ≠ (i, p) → (convert conv a h.2).isSome = true → better conv a p h.2 = true := by
  have hall : ∀ x : Nat × Param, (hs.filter (fun h => (convert conv a h.2).isSome)).all (fun y => decide (x = y) || better conv a x.2 y.2) = true ↔
      ∀ h ∈ hs, h ≠ x → (convert conv a h.2).isSome = true → better conv a x.2 h.2 = true := by
    intro x
    simp only [List.all_eq_true, List.mem_filter, Bool.or_eq_true, decide_eq_true_eq, and_imp]
    constructor
    · intro h y hy hne hv
      rcases h y hy hv with rfl | h
      · exact absurd rfl hne
      · exact h
    · intro h y hy hv
      by_cases e : x = y
      · exact Or.inl e
      · exact Or.inr (h y hy (fun e' => e e'.symm) hv)
  constructor
  · intro h
    simp only [Overloaded.select, Option.map_eq_some_iff] at h
    obtain ⟨⟨i', p⟩, hf, rfl⟩ := h
    have hm := List.mem_of_find?_eq_some hf
    have hp := List.find?_some hf
    obtain ⟨h1, h2⟩ := List.mem_filter.mp hm
    exact ⟨p, h1, h2, (hall _).mp hp⟩
  · intro ⟨p, h1, h2, h3⟩
    simp only [Overloaded.select, Option.map_eq_some_iff]
    have hex : ∃ x, (hs.filter (fun h => (convert conv a h.2).isSome)).find?
        (fun x => (hs.filter (fun h => (convert conv a h.2).isSome)).all (fun y => decide (x = y) || better conv a x.2 y.2)) = some x := by
      rw [← Option.isSome_iff_exists, List.find?_isSome]
      exact ⟨(i, p), List.mem_filter.mpr ⟨h1, h2⟩, (hall _).mpr h3⟩
    obtain ⟨x, hx⟩ := hex
    refine ⟨x, hx, ?_⟩
    have hm := List.mem_filter.mp (List.mem_of_find?_eq_some hx)
    have hb := (hall x).mp (by have := List.find?_some hx; exact this)
    by_cases e : x = (i, p)
    · rw [e]
    · have b1 := hb (i, p) h1 (fun e' => e e'.symm) h2
      have b2 := h3 x hm.1 e hm.2
      rw [better_asymm a _ _ b1] at b2
      cases b2

/-- The order of the handlers does not matter. -/
theorem C144_order {hs hs' : Overloaded} (hp : hs.Perm hs') (a : Arg) : hs.select conv a = hs'.select conv a := by
  apply Option.ext
  intro i
  rw [select_iff, select_iff]
  simp only [hp.mem_iff]

/-- A handler for another type is called by a conversion, if at all. -/
theorem convert_other (a : Arg) {q : Param} {t : Nat} (ht : q.type? = some t) (hta : t ≠ a.type) (hv : (convert conv a q).isSome = true) :
    ∃ r, convert conv a q = some (.other r) := by
  have key : ∀ o : Option Nat, (o.map (fun r => Conversion.other (r + 1))).isSome = true → ∃ r, o.map (fun r => Conversion.other (r + 1)) = some (.other r) := by
    intro o ho
    cases o with
    | none => cases ho
    | some r => exact ⟨r + 1, rfl⟩
  cases q with
  | value u =>
    obtain rfl := Option.some.inj ht
    simp only [convert, hta, if_false] at hv ⊢
    exact key _ hv
  | constRef u =>
    obtain rfl := Option.some.inj ht
    simp only [convert, hta, if_false] at hv ⊢
    exact key _ hv
  | rvalueRef u =>
    obtain rfl := Option.some.inj ht
    simp only [convert, hta, if_false] at hv ⊢
    exact key _ hv
  | ref u =>
    obtain rfl := Option.some.inj ht
    simp [convert, hta] at hv
  | auto => cases ht
  | constAuto => cases ht
  | forward => cases ht

/-- An exact match is better than a conversion. -/
theorem better_other (a : Arg) {p q : Param} {b : Binding} {t : Nat} (hp : convert conv a p = some (.same b)) (ht : q.type? = some t) (hta : t ≠ a.type)
    (hv : (convert conv a q).isSome = true) : better conv a p q = true := by
  obtain ⟨r, hr⟩ := convert_other a ht hta hv
  cases b <;> simp only [better, hp, hr, betterConversion, Bool.true_or]

/-- If exactly one handler is for the type of the alternative, by value or by const reference, and none is generic, it is called, whatever conversions there are between the types. -/
theorem C144_exact {hs : Overloaded} (a : Arg) {i : Nat} {p : Param} (hi : (i, p) ∈ hs)
    (hp : p = .value a.type ∨ p = .constRef a.type) (hother : ∀ h ∈ hs, h ≠ (i, p) → ∃ t, h.2.type? = some t ∧ t ≠ a.type) :
    hs.select conv a = some i := by
  rw [select_iff]
  have hc : ∃ b, convert conv a p = some (.same b) := by
    rcases hp with rfl | rfl
    · exact ⟨.copy, by simp only [convert, if_true]⟩
    · exact ⟨.reference true true, by simp only [convert, if_true]⟩
  obtain ⟨b, hb⟩ := hc
  refine ⟨p, hi, by rw [hb]; rfl, fun h hm hne hv => ?_⟩
  obtain ⟨t, ht, hta⟩ := hother h hm hne
  exact better_other a hb ht hta hv

/-- A handler that takes the alternative by reference is called for lvalues that are not const (`t&`) or rvalues that are not const (`t&&`). -/
theorem C144_exact_ref {hs : Overloaded} (a : Arg) (hc : a.isConst = false) {i : Nat} {p : Param} (hi : (i, p) ∈ hs)
    (hp : p = if a.isLvalue then .ref a.type else .rvalueRef a.type) (hother : ∀ h ∈ hs, h ≠ (i, p) → ∃ t, h.2.type? = some t ∧ t ≠ a.type) :
    hs.select conv a = some i := by
  rw [select_iff]
  have hb : ∃ b, convert conv a p = some (.same b) := by
    subst hp
    cases hl : a.isLvalue with
    | true => exact ⟨_, by simp only [if_true, convert, hl, hc, and_self]; rfl⟩
    | false => exact ⟨_, by simp only [Bool.false_eq_true, if_false, if_true, convert, hl, hc, and_self]; rfl⟩
  obtain ⟨b, hb⟩ := hb
  refine ⟨p, hi, by rw [hb]; rfl, fun h hm hne hv => ?_⟩
  obtain ⟨t, ht, hta⟩ := hother h hm hne
  exact better_other a hb ht hta hv

/-- Generic handlers (any, of any form) do not take the place of a handler that takes its type by value. -/
theorem C144_generic_partial {hs : Overloaded} (a : Arg) {i : Nat} (hi : (i, Param.value a.type) ∈ hs)
    (hother : ∀ h ∈ hs, h ≠ (i, Param.value a.type) → h.2.isGeneric = true ∨ ∃ t, h.2.type? = some t ∧ t ≠ a.type) :
    hs.select conv a = some i := by
  rw [select_iff]
  have hb : convert conv a (.value a.type) = some (.same .copy) := by simp only [convert, if_true]
  refine ⟨_, hi, by rw [hb]; rfl, fun h hm hne hv => ?_⟩
  rcases hother h hm hne with hg | ⟨t, ht, hta⟩
  · obtain ⟨j, q⟩ := h
    cases q <;> simp only [Param.isGeneric, Bool.false_eq_true] at hg <;> simp [better, convert, betterConversion, Param.isGeneric]
  · exact better_other a hb ht hta hv

/-- Nor that of a handler for `const t&`, if they are for `auto` or `const auto&`, or the variant is a const lvalue. -/
theorem C144_generic_const_partial {hs : Overloaded} (a : Arg) {i : Nat} (hi : (i, Param.constRef a.type) ∈ hs)
    (hother : ∀ h ∈ hs, h ≠ (i, Param.constRef a.type) → h.2 = .auto ∨ h.2 = .constAuto ∨ (h.2 = .forward ∧ a.isLvalue = true ∧ a.isConst = true) ∨ ∃ t, h.2.type? = some t ∧ t ≠ a.type) :
    hs.select conv a = some i := by
  rw [select_iff]
  have hb : convert conv a (.constRef a.type) = some (.same (.reference true true)) := by simp only [convert, if_true]
  refine ⟨_, hi, by rw [hb]; rfl, fun h hm hne hv => ?_⟩
  obtain ⟨j, q⟩ := h
  rcases hother _ hm hne with hg | hg | ⟨hg, hl, hc⟩ | ⟨t, ht, hta⟩
  · simp only at hg; subst hg; simp [better, convert, betterConversion, Param.isGeneric]
  · simp only at hg; subst hg; simp [better, convert, betterConversion, Param.isGeneric]
  · simp only at hg; subst hg; simp [better, convert, betterConversion, Param.isGeneric, hl, hc]
  · exact better_other a hb ht hta hv

/-- Nor that of a handler for `t&` (variants that are lvalues and not const) or `t&&` (rvalues, not const), whatever they are for. -/
theorem C144_generic_ref_partial {hs : Overloaded} (a : Arg) (hc : a.isConst = false) {i : Nat} {p : Param} (hi : (i, p) ∈ hs)
    (hp : p = if a.isLvalue then .ref a.type else .rvalueRef a.type)
    (hother : ∀ h ∈ hs, h ≠ (i, p) → h.2.isGeneric = true ∨ ∃ t, h.2.type? = some t ∧ t ≠ a.type) : hs.select conv a = some i := by
  rw [select_iff]
  have hb : convert conv a p = some (.same (.reference a.isLvalue false)) ∧ p.isGeneric = false := by
    subst hp
    cases hl : a.isLvalue with
    | true => exact ⟨by simp only [if_true, convert, hl, hc, and_self], rfl⟩
    | false => exact ⟨by simp only [Bool.false_eq_true, if_false, if_true, convert, hl, hc, and_self], rfl⟩
  obtain ⟨hb, gp⟩ := hb
  refine ⟨p, hi, by rw [hb]; rfl, fun h hm hne hv => ?_⟩
  rcases hother h hm hne with hg | ⟨t, ht, hta⟩
  · obtain ⟨j, q⟩ := h
    have k1 : convert conv a .auto = some (.same .copy) := rfl
    have k2 : convert conv a .constAuto = some (.same (.reference true true)) := rfl
    have k3 : convert conv a .forward = some (.same (.reference a.isLvalue a.isConst)) := rfl
    cases q with
    | auto => simp only [better, hb, k1, betterConversion, gp]; rfl
    | constAuto => simp only [better, hb, k2, betterConversion, gp]; cases a.isLvalue <;> rfl
    | forward => simp only [better, hb, k3, betterConversion, gp, hc]; cases a.isLvalue <;> rfl
    | _ => cases hg
  · exact better_other a hb ht hta hv

/-- A generic handler is called for the types that have none and to which no other converts better: it is an exact match for all. -/
theorem C144_generic_rest {hs : Overloaded} (a : Arg) {g : Nat} {q : Param} (hg : (g, q) ∈ hs) (hq : q.isGeneric = true)
    (hother : ∀ h ∈ hs, h ≠ (g, q) → ∃ t, h.2.type? = some t ∧ t ≠ a.type) : hs.select conv a = some g := by
  rw [select_iff]
  have hb : ∃ b, convert conv a q = some (.same b) := by
    cases q <;> simp only [Param.isGeneric, Bool.false_eq_true] at hq <;> exact ⟨_, rfl⟩
  obtain ⟨b, hb⟩ := hb
  refine ⟨q, hg, by rw [hb]; rfl, fun h hm hne hv => ?_⟩
  obtain ⟨t, ht, hta⟩ := hother h hm hne
  exact better_other a hb ht hta hv

/-- A handler for `const t&` beside a generic one for `auto&&`: it is called only if the variant is a const lvalue.  Otherwise the generic handler is the better match and takes the alternative,
although it has a handler of its own. -/
theorem C144_generic_violated {hs : Overloaded} (a : Arg) {i g : Nat} (hi : (i, Param.constRef a.type) ∈ hs) (hg : (g, Param.forward) ∈ hs)
    (hother : ∀ h ∈ hs, h ≠ (i, Param.constRef a.type) → h ≠ (g, Param.forward) → ∃ t, h.2.type? = some t ∧ t ≠ a.type) :
    hs.select conv a = if a.isLvalue = true ∧ a.isConst = true then some i else some g := by
  have h1 : convert conv a (.constRef a.type) = some (.same (.reference true true)) := by simp only [convert, if_true]
  have h2 : convert conv a .forward = some (.same (.reference a.isLvalue a.isConst)) := rfl
  split
  · rename_i hc
    rw [select_iff]
    refine ⟨_, hi, by rw [h1]; rfl, fun h hm hne hv => ?_⟩
    by_cases hf : h = (g, .forward)
    · subst hf
      simp [better, h1, h2, betterConversion, hc.1, hc.2, Param.isGeneric]
    · obtain ⟨t, ht, hta⟩ := hother h hm hne hf
      exact better_other a h1 ht hta hv
  · rename_i hc
    rw [select_iff]
    refine ⟨_, hg, by rw [h2]; rfl, fun h hm hne hv => ?_⟩
    by_cases hf : h = (i, .constRef a.type)
    · subst hf
      cases hl : a.isLvalue <;> cases hcc : a.isConst <;> simp_all [better, betterConversion, Param.isGeneric]
    · obtain ⟨t, ht, hta⟩ := hother h hm hf hne
      exact better_other a h2 ht hta hv

/-- Two handlers for the type of the alternative, one by value and one by const reference, do not compile (unless there is a better one). -/
theorem C144_ambiguous {hs : Overloaded} (a : Arg) {i j : Nat} (hi : (i, Param.value a.type) ∈ hs) (hj : (j, Param.constRef a.type) ∈ hs)
    (hother : ∀ h ∈ hs, h ≠ (i, Param.value a.type) → h ≠ (j, Param.constRef a.type) → ∃ t, h.2.type? = some t ∧ t ≠ a.type) :
    hs.select conv a = none := by
  have h1 : convert conv a (.value a.type) = some (.same .copy) := by simp only [convert, if_true]
  have h2 : convert conv a (.constRef a.type) = some (.same (.reference true true)) := by simp only [convert, if_true]
  cases hk : hs.select conv a with
  | none => rfl
  | some k =>
    obtain ⟨q, hq, hv, hb⟩ := (select_iff hs a k).mp hk
    by_cases e1 : (k, q) = (i, Param.value a.type)
    · obtain ⟨rfl, rfl⟩ := Prod.mk.inj e1
      have := hb _ hj (by intro h; cases h) (by rw [h2]; rfl)
      simp [better, h1, h2, betterConversion, Param.isGeneric] at this
    · have b1 := hb _ hi (Ne.symm e1) (by rw [h1]; rfl)
      by_cases e2 : (k, q) = (j, Param.constRef a.type)
      · obtain ⟨rfl, rfl⟩ := Prod.mk.inj e2
        simp [better, h1, h2, betterConversion, Param.isGeneric] at b1
      · obtain ⟨t, ht, hta⟩ := hother _ hq e1 e2
        rw [better_asymm a _ _ (better_other a h1 ht hta hv)] at b1
        cases b1

/-- Two generic handlers, for `const auto&` and `auto&&`, and none for the type: a const lvalue goes to `const auto&`, everything else to `auto&&`. -/
theorem C144_two_generic {hs : Overloaded} (a : Arg) {i g : Nat} (hi : (i, Param.constAuto) ∈ hs) (hg : (g, Param.forward) ∈ hs)
    (hother : ∀ h ∈ hs, h ≠ (i, Param.constAuto) → h ≠ (g, Param.forward) → ∃ t, h.2.type? = some t ∧ t ≠ a.type) :
    hs.select conv a = if a.isLvalue = true ∧ a.isConst = true then some i else some g := by
  have h1 : convert conv a .constAuto = some (.same (.reference true true)) := rfl
  have h2 : convert conv a .forward = some (.same (.reference a.isLvalue a.isConst)) := rfl
  split
  · rename_i hc
    rw [select_iff]
    refine ⟨_, hi, by rw [h1]; rfl, fun h hm hne hv => ?_⟩
    by_cases hf : h = (g, .forward)
    · subst hf
      simp [better, h1, h2, betterConversion, hc.1, hc.2, Param.isGeneric, moreSpecialised]
    · obtain ⟨t, ht, hta⟩ := hother h hm hne hf
      exact better_other a h1 ht hta hv
  · rename_i hc
    rw [select_iff]
    refine ⟨_, hg, by rw [h2]; rfl, fun h hm hne hv => ?_⟩
    by_cases hf : h = (i, .constAuto)
    · subst hf
      cases hl : a.isLvalue <;> cases hcc : a.isConst <;> simp_all [better, betterConversion, Param.isGeneric, moreSpecialised]
    · obtain ⟨t, ht, hta⟩ := hother h hm hf hne
      exact better_other a h2 ht hta hv

theorem convert_rank (a : Arg) {q : Param} {t r : Nat} (hq : q = .value t ∨ q = .constRef t) (hta : t ≠ a.type) (hr : conv a.type t = some r) :
    convert conv a q = some (.other (r + 1)) := by
  rcases hq with rfl | rfl <;> simp [convert, hta, hr]

/-- No handler for the type: the one with the best conversion is called. -/
theorem C144_conversion {hs : Overloaded} (a : Arg) {i t r : Nat} {p : Param} (hi : (i, p) ∈ hs) (hp : p = .value t ∨ p = .constRef t) (hta : t ≠ a.type) (hr : conv a.type t = some r)
    (hother : ∀ h ∈ hs, h ≠ (i, p) → ∃ u, (h.2 = .value u ∨ h.2 = .constRef u) ∧ u ≠ a.type ∧ ∀ s, conv a.type u = some s → r < s) : hs.select conv a = some i := by
  rw [select_iff]
  have hc := convert_rank (conv := conv) a hp hta hr
  refine ⟨p, hi, by rw [hc]; rfl, fun h hm hne hv => ?_⟩
  obtain ⟨u, hu, hua, hs⟩ := hother h hm hne
  cases hcu : conv a.type u with
  | none => rcases hu with hu | hu <;> simp [hu, convert, hua, hcu] at hv
  | some s =>
    have := hs s hcu
    simp only [better, hc, convert_rank (conv := conv) a hu hua hcu, betterConversion]
    simp [this]

/-- Two handlers with conversions of the same rank, and none for the type: the program does not compile. -/
theorem C144_conversion_ambiguous {hs : Overloaded} (a : Arg) {i j t u r : Nat} {p q : Param} (hi : (i, p) ∈ hs) (hp : p = .value t ∨ p = .constRef t) (hta : t ≠ a.type) (hr : conv a.type t = some r)
    (hj : (j, q) ∈ hs) (hq : q = .value u ∨ q = .constRef u) (hua : u ≠ a.type) (hr' : conv a.type u = some r) (hij : (i, p) ≠ (j, q))
    (hother : ∀ h ∈ hs, h ≠ (i, p) → h ≠ (j, q) → ∃ u, (h.2 = .value u ∨ h.2 = .constRef u) ∧ u ≠ a.type ∧ ∀ s, conv a.type u = some s → r ≤ s) : hs.select conv a = none := by
  have hc := convert_rank (conv := conv) a hp hta hr
  have hc' := convert_rank (conv := conv) a hq hua hr'
  have gp : p.isGeneric = false := by rcases hp with rfl | rfl <;> rfl
  have gq : q.isGeneric = false := by rcases hq with rfl | rfl <;> rfl
  cases hk : hs.select conv a with
  | none => rfl
  | some k =>
    obtain ⟨x, hx, hv, hb⟩ := (select_iff hs a k).mp hk
    by_cases e1 : (k, x) = (i, p)
    · have := hb (j, q) hj (by rw [e1]; exact fun e => hij e.symm) (by rw [hc']; rfl)
      injection e1 with _ e1
      subst e1
      simp [better, hc, hc', betterConversion, gq] at this
    · have h1 := hb (i, p) hi (fun e => e1 e.symm) (by rw [hc]; rfl)
      by_cases e2 : (k, x) = (j, q)
      · injection e2 with _ e2
        subst e2
        simp [better, hc, hc', betterConversion, gp] at h1
      · obtain ⟨v, hv', hva, hs⟩ := hother (k, x) hx e1 e2
        cases hcu : conv a.type v with
        | none => rcases hv' with hu | hu <;> simp only at hu <;> simp [hu, convert, hva, hcu] at hv
        | some s =>
          have := hs s hcu
          have hcx := convert_rank (conv := conv) a hv' hva hcu
          simp only at hcx
          simp [better, hcx, hc, betterConversion, gp] at h1
          omega

/-- A handler with a reference parameter is not called for arguments the reference cannot be bound to: `t&` for temporaries and constants, `t&&` for lvalues and constants. -/
theorem C144_not_bound {hs : Overloaded} (a : Arg) {i : Nat}
    (hi : ∀ p, (i, p) ∈ hs → (p = .ref a.type ∧ (a.isLvalue = false ∨ a.isConst = true)) ∨ (p = .rvalueRef a.type ∧ (a.isLvalue = true ∨ a.isConst = true))) :
    hs.select conv a ≠ some i := by
  intro hk
  obtain ⟨q, hq, hv, _⟩ := (select_iff hs a i).mp hk
  rcases hi q hq with ⟨rfl, h⟩ | ⟨rfl, h⟩
  · rcases h with h | h <;> simp [convert, h] at hv
  · rcases h with h | h <;> simp [convert, h] at hv

/-- Visiting a variant whose alternatives each have exactly one handler, by value or by const reference: the handler of the alternative held is called. -/
theorem C144_visit {hs : Overloaded} {alternatives : List Nat} (lvalue const : Bool)
    (handler : ∀ t ∈ alternatives, ∃ i p, (i, p) ∈ hs ∧ (p = .value t ∨ p = .constRef t) ∧ ∀ h ∈ hs, h ≠ (i, p) → ∃ u, h.2.type? = some u ∧ u ≠ t)
    {index t : Nat} (ht : alternatives[index]? = some t) :
    ∃ i p, (i, p) ∈ hs ∧ p.type? = some t ∧ visit conv hs alternatives lvalue const index = some i := by
  have hsel : ∀ t ∈ alternatives, ∃ i p, (i, p) ∈ hs ∧ p.type? = some t ∧ hs.select conv ⟨t, lvalue, const⟩ = some i := by
    intro t hm
    obtain ⟨i, p, hi, hp, ho⟩ := handler t hm
    exact ⟨i, p, hi, by rcases hp with rfl | rfl <;> rfl, C144_exact ⟨t, lvalue, const⟩ hi hp ho⟩
  obtain ⟨i, p, hi, hp, hs'⟩ := hsel t (List.mem_of_getElem? ht)
  refine ⟨i, p, hi, hp, ?_⟩
  have hall : alternatives.all (fun t => (hs.select conv ⟨t, lvalue, const⟩).isSome) = true := by
    rw [List.all_eq_true]
    intro u hu
    obtain ⟨_, _, _, _, h⟩ := hsel u hu
    rw [h]
    rfl
  simp only [visit, hall, if_true, ht, hs']

/-- Numbers convert to each other: `int` (0), `double` (1), and a text (2). -/
def numbers : Nat → Nat → Option Nat := fun s t => if s < 2 ∧ t < 2 then some 1 else none

example : visit numbers [(7, .value 0), (8, .constRef 2), (9, .value 1)] [1, 0, 2] true false 1 = some 7 := by decide
example : visit numbers [(7, .value 0), (8, .constRef 2)] [1, 0, 2] true false 0 = some 7 := by decide
example : visit numbers [(7, .value 0), (8, .forward)] [1, 0, 2] true false 0 = some 8 := by decide
example : visit numbers [(7, .constRef 0), (8, .forward)] [0] true false 0 = some 8 ∧ visit numbers [(7, .constRef 0), (8, .forward)] [0] true true 0 = some 7 := by decide
example : visit numbers [(7, .value 0)] [0, 2] true false 0 = none := by decide
example : ∀ t ∈ [0, 2], ∃ i p, (i, p) ∈ [(7, Param.value 0), (8, Param.constRef 2)] ∧ (p = .value t ∨ p = .constRef t) ∧
    ∀ h ∈ [(7, Param.value 0), (8, Param.constRef 2)], h ≠ (i, p) → ∃ u, h.2.type? = some u ∧ u ≠ t := by
  intro t ht
  simp only [List.mem_cons, List.not_mem_nil, or_false] at ht
  rcases ht with rfl | rfl
  · exact ⟨7, .value 0, by decide, by decide, fun h hm hne => ⟨2, by revert h; decide, by decide⟩⟩
  · exact ⟨8, .constRef 2, by decide, by decide, fun h hm hne => ⟨0, by revert h; decide, by decide⟩⟩

/-- Alternatives of type 5, handlers for the types 6 (promotion) and 7 (conversion), then for 7 and 8 (both conversions): the hypotheses of `C144_conversion` and `C144_conversion_ambiguous`. -/
example : Overloaded.select (fun _ t => if t = 6 then some 0 else some 1) [(0, Param.value 7), (1, Param.constRef 6)] ⟨5, true, false⟩ = some 1 ∧
    Overloaded.select (fun _ t => if t = 6 then some 0 else some 1) [(0, Param.value 7), (1, Param.constRef 8)] ⟨5, true, false⟩ = none :=
  ⟨C144_conversion (t := 6) (r := 0) (p := .constRef 6) _ (by simp) (Or.inr rfl) (by decide) rfl (by intro h hm hne; simp at hm; exact hm.elim (fun e => by subst e; exact ⟨7, Or.inl rfl, by decide, by simp⟩) (fun e => absurd e hne)),
   C144_conversion_ambiguous (i := 0) (j := 1) (t := 7) (u := 8) (r := 1) (p := .value 7) (q := .constRef 8) _ (by simp) (Or.inl rfl) (by decide) rfl (by simp) (Or.inr rfl) (by decide) rfl (by simp)
    (by intro h hm h1 h2; simp at hm; exact hm.elim (fun e => absurd e h1) (fun e => absurd e h2))⟩

/-- Handlers for a type beside generic ones. -/
example : Overloaded.select (fun _ _ => none) [(0, Param.auto), (1, Param.constRef 5), (2, Param.constRef 6)] ⟨5, true, false⟩ = some 1 ∧
    Overloaded.select (fun _ _ => none) [(0, Param.forward), (1, Param.ref 5), (2, Param.constRef 6)] ⟨5, true, false⟩ = some 1 :=
  ⟨C144_generic_const_partial _ (by simp) (by
      intro h hm hne; simp at hm; rcases hm with rfl | rfl | rfl
      · exact .inl rfl
      · exact absurd rfl hne
      · exact .inr (.inr (.inr ⟨6, rfl, by decide⟩))),
   C144_generic_ref_partial (p := .ref 5) _ rfl (by simp) rfl (by
      intro h hm hne; simp at hm; rcases hm with rfl | rfl | rfl
      · exact .inl rfl
      · exact absurd rfl hne
      · exact .inr ⟨6, rfl, by decide⟩)⟩

/-- A handler for `t&` and a constant variant: the hypothesis of `C144_not_bound` is met, and the handler for `const t&` is called. -/
example : Overloaded.select (fun _ _ => none) [(0, Param.ref 5), (1, Param.constRef 5)] ⟨5, true, true⟩ ≠ some 0 ∧
    Overloaded.select (fun _ _ => none) [(0, Param.ref 5), (1, Param.constRef 5)] ⟨5, true, true⟩ = some 1 :=
  ⟨C144_not_bound _ (by intro p hp; simp at hp; exact Or.inl ⟨hp, Or.inr rfl⟩), by decide⟩

end Verif.TypeTraits
