import Verif.EnumArray.ModelDecl
import Verif.EnumArray.Props
import Verif.Flags.Props

/-!
# C157: enumerators, elements and flags
-/

namespace Verif.EnumArray.Decl
open Verif.Cpp

/-- The enumerators that stand for something: all but `Count` and `Max`. -/
def Proper (es : List (Name × Int)) (k : Nat) (v : Int) : Prop := (Name.other k, v) ∈ es

/-- The arrays have exactly one element for each enumerator: the enumerators have the values below the size, each value one. -/
def OneEach (es : List (Name × Int)) (size : Nat) : Prop :=
  (∀ k v, Proper es k v → 0 ≤ v ∧ v < size) ∧ ∀ j : Nat, j < size → ∃! k, Proper es k (j : Int)

/-- A declaration of enumerators without initialisers. -/
def plain (names : List Nat) : List Item := names.map (fun k => ⟨.other k, .next⟩)

/-- A declaration of flags that are not automatic: `A = 1, B = 2, C = 4, ...`. -/
def powers : Nat → List Nat → List Item
  | _, [] => []
  | i, k :: ks => ⟨.other k, .value (2 ^ i)⟩ :: powers (i + 1) ks

/-- The two ways to end a declaration: `Count` and `Max = Last`. -/
def End (names : List Nat) (e : Item) : Prop := e = ⟨.count, .next⟩ ∨ ∃ last, names.getLast? = some last ∧ e = ⟨.max, .same (.other last)⟩

/-- Names with the values `f b`, `f (b + 1)`, ..., the last one first. -/
private def listed (f : Nat → Int) (b : Nat) : List Nat → List (Name × Int) → List (Name × Int)
  | [], acc => acc
  | k :: ks, acc => listed f (b + 1) ks ((Name.other k, f b) :: acc)

private theorem declare_append (is js : List Item) : ∀ done, declare done (is ++ js) = (declare done is).bind (fun es => declare es js) := by
  induction is with
  | nil => intro done; rfl
  | cons i is ih =>
    intro done
    simp only [List.cons_append, declare]
    cases valueOf done i.init with
    | none => rfl
    | some v => exact ih _

private theorem declare_plain (c : Int) (ks : List Nat) : ∀ (b : Nat) (done : List (Name × Int)), nextValue done = b + c →
    declare done (plain ks) = some (listed (fun i => i + c) b ks done) := by
  induction ks with
  | nil => intro b done _; rfl
  | cons k ks ih =>
    intro b done hd
    show declare done (⟨.other k, .next⟩ :: plain ks) = _
    simp only [declare, valueOf, listed]
    rw [hd, ih (b + 1) ((.other k, (b : Int) + c) :: done) (by simp only [nextValue]; push_cast; omega)]

private theorem declare_powers (ks : List Nat) : ∀ (b : Nat) (done : List (Name × Int)), declare done (powers b ks) = some (listed (fun i => 2 ^ i) b ks done) := by
  induction ks with
  | nil => intro b done; rfl
  | cons k ks ih => intro b done; simp only [powers, declare, valueOf, listed, ih]

private theorem mem_listed {f : Nat → Int} {n : Name} {v : Int} : ∀ (ks : List Nat) (b : Nat) (acc : List (Name × Int)),
    (n, v) ∈ listed f b ks acc ↔ (n, v) ∈ acc ∨ ∃ (i : Nat) (k : Nat), ks[i]? = some k ∧ n = .other k ∧ v = f (b + i) := by
  intro ks
  induction ks with
  | nil => intro b acc; simp [listed]
  | cons k ks ih =>
    intro b acc
    rw [listed, ih]
    constructor
    · rintro (h | ⟨i, k', h1, rfl, rfl⟩)
      · rcases List.mem_cons.1 h with h | h
        · obtain ⟨rfl, rfl⟩ := Prod.mk.inj h
          exact .inr ⟨0, k, rfl, rfl, rfl⟩
        · exact .inl h
      · exact .inr ⟨i + 1, k', by simpa using h1, rfl, by congr 1; omega⟩
    · rintro (h | ⟨i, k', h1, rfl, rfl⟩)
      · exact .inl (List.mem_cons_of_mem _ h)
      · cases i with
        | zero => simp at h1; subst h1; exact .inl (by simp)
        | succ i => exact .inr ⟨i, k', by simpa using h1, rfl, by congr 1; omega⟩

private theorem listed_snoc (f : Nat → Int) (l : Nat) : ∀ (ks : List Nat) (b : Nat) (acc : List (Name × Int)),
    listed f b (ks ++ [l]) acc = (.other l, f (b + ks.length)) :: listed f b ks acc := by
  intro ks
  induction ks with
  | nil => intro b acc; rfl
  | cons k ks ih =>
    intro b acc
    rw [List.cons_append, listed, ih, listed]
    congr 3
    simp; omega

private theorem next_listed (c : Int) : ∀ (ks : List Nat) (b : Nat) (acc : List (Name × Int)), nextValue acc = b + c →
    nextValue (listed (fun i => i + c) b ks acc) = b + c + ks.length := by
  intro ks
  induction ks with
  | nil => intro b acc h; simpa [listed] using h
  | cons k ks ih =>
    intro b acc h
    rw [listed, ih (b + 1) _ (by simp only [nextValue]; push_cast; omega)]
    simp; omega

private theorem lookup_listed {f : Nat → Int} {n : Name} (hn : ∀ k, n ≠ .other k) : ∀ {ks : List Nat} {b : Nat} {acc : List (Name × Int)},
    (listed f b ks acc).lookup n = acc.lookup n := by
  intro ks
  induction ks with
  | nil => intro b acc; rfl
  | cons k ks ih =>
    intro b acc
    rw [listed, ih, List.lookup]
    have : (n == Name.other k) = false := by simpa using hn k
    rw [this]

private theorem lookup_unique {n : Name} {v : Int} : ∀ {es : List (Name × Int)}, (n, v) ∈ es → (∀ w, (n, w) ∈ es → w = v) → es.lookup n = some v := by
  intro es
  induction es with
  | nil => intro h; cases h
  | cons x xs ih =>
    obtain ⟨m, w⟩ := x
    intro h hu
    rw [List.lookup]
    by_cases hm : n = m
    · subst hm
      simp only [beq_self_eq_true]
      rw [hu w (by simp)]
    · have : (n == m) = false := by simpa using hm
      rw [this]
      refine ih ?_ (fun w hw => hu w (List.mem_cons_of_mem _ hw))
      rcases List.mem_cons.1 h with h | h
      · exact absurd (Prod.mk.inj h).1 hm
      · exact h

private theorem lookup_none {n : Name} : ∀ {es : List (Name × Int)}, (∀ v, (n, v) ∉ es) → es.lookup n = none := by
  intro es h
  rw [List.lookup_eq_none_iff]
  rintro ⟨m, v⟩ hm
  simp only [bne_iff_ne, ne_eq]
  intro e; subst e; exact h v hm

private theorem count_listed {f : Nat → Int} {b : Nat} {ks : List Nat} {acc : List (Name × Int)} (h : ∀ v, (Name.count, v) ∉ acc) : ∀ v, (Name.count, v) ∉ listed f b ks acc := by
  intro v hv
  rcases (mem_listed _ _ _).1 hv with h' | ⟨_, _, _, h', _⟩
  · exact h v h'
  · cases h'

private theorem max_listed {f : Nat → Int} {b : Nat} {ks : List Nat} {acc : List (Name × Int)} (h : ∀ v, (Name.max, v) ∉ acc) : ∀ v, (Name.max, v) ∉ listed f b ks acc := by
  intro v hv
  rcases (mem_listed _ _ _).1 hv with h' | ⟨_, _, _, h', _⟩
  · exact h v h'
  · cases h'

/-- The enumerators and the number of values of a list of names ended by `Count` or `Max`. -/
private theorem ended {f : Nat → Int} {names : List Nat} {e : Item} (he : End names e) {is : List Item}
    (hd : declare [] is = some (listed f 0 names [])) (hf : ∀ i, 0 ≤ f i ∧ f i < 2 ^ 64 - 1 ∨ names.length ≤ i) :
    ∃ es, declare [] (is ++ [e]) = some es ∧ (∀ k v, Proper es k v ↔ ∃ i : Nat, names[i]? = some k ∧ v = f i) ∧
      enumValueCount es = some (if names = [] then 0 else (f (names.length - 1)).toNat + 1) := by
  have hmem : ∀ (n : Name) (w : Int), (n = .count ∨ n = .max) → ∀ k v, Proper ((n, w) :: listed f 0 names []) k v ↔ ∃ i : Nat, names[i]? = some k ∧ v = f i := by
    intro n w hn k v
    unfold Proper
    rw [List.mem_cons, mem_listed]
    constructor
    · rintro (h | h | ⟨i, k', h1, h2, h3⟩)
      · have := (Prod.mk.inj h).1
        rcases hn with rfl | rfl <;> cases this
      · cases h
      · cases h2; exact ⟨i, h1, by simpa using h3⟩
    · rintro ⟨i, h1, h2⟩
      exact .inr (.inr ⟨i, k, h1, rfl, by simpa using h2⟩)
  rw [declare_append, hd]
  rcases he with rfl | ⟨last, hl, rfl⟩
  · refine ⟨(.count, nextValue (listed f 0 names [])) :: listed f 0 names [], rfl, hmem _ _ (.inl rfl), ?_⟩
    have hm : valueIn ((.count, nextValue (listed f 0 names [])) :: listed f 0 names []) .max = none := by
      apply lookup_none
      intro v hv
      rcases List.mem_cons.1 hv with h | h
      · cases (Prod.mk.inj h).1
      · exact max_listed (by simp) v h
    have hc : valueIn ((.count, nextValue (listed f 0 names [])) :: listed f 0 names []) .count = some (nextValue (listed f 0 names [])) := by
      simp [valueIn, List.lookup]
    unfold enumValueCount
    rw [hm, hc]
    rcases List.eq_nil_or_concat names with rfl | ⟨init, l, rfl⟩
    · rfl
    · simp only [List.concat_eq_append] at *
      rw [listed_snoc]
      have := (hf init.length).resolve_right (by simp)
      simp only [nextValue, valueCount, toSizeT, Nat.zero_add]
      rw [if_neg (by simp)]
      simp only [List.length_append, List.length_singleton, Nat.add_sub_cancel]
      congr 1; omega
  · rcases List.eq_nil_or_concat names with rfl | ⟨init, l, rfl⟩
    · simp at hl
    · simp only [List.concat_eq_append] at *
      obtain rfl : l = last := by simpa using hl
      have := (hf init.length).resolve_right (by simp)
      have hlook : (listed f 0 (init ++ [l]) []).lookup (.other l) = some (f init.length) := by
        rw [listed_snoc]; simp [List.lookup]
      refine ⟨(.max, f init.length) :: listed f 0 (init ++ [l]) [], ?_, hmem _ _ (.inr rfl), ?_⟩
      · show declare (listed f 0 (init ++ [l]) []) [⟨.max, .same (.other l)⟩] = _
        simp only [declare, valueOf, hlook]
      · have hm : valueIn ((.max, f init.length) :: listed f 0 (init ++ [l]) []) .count = none := by
          apply lookup_none
          intro v hv
          rcases List.mem_cons.1 hv with h | h
          · cases (Prod.mk.inj h).1
          · exact count_listed (by simp) v h
        have hc : valueIn ((.max, f init.length) :: listed f 0 (init ++ [l]) []) .max = some (f init.length) := by
          simp [valueIn, List.lookup]
        unfold enumValueCount
        rw [hm, hc, if_neg (by simp)]
        simp only [valueCount, toSizeT, List.length_append, List.length_singleton, Nat.add_sub_cancel]
        congr 1; omega

/-- **C157** Enumerators without initialisers, followed by `Count` or by `Max = Last`: the arrays have one element for each enumerator, in the order of the
declaration: reading the element of an enumerator is defined, and every element is that of exactly one enumerator. -/
theorem C157_plain_partial {names : List Nat} (hn : names.Nodup) (hlen : names.length < 2 ^ 64) {e : Item} (he : End names e) :
    ∃ es, declare [] (plain names ++ [e]) = some es ∧ enumValueCount es = some names.length ∧ OneEach es names.length ∧
      (∀ (i : Nat) k, names[i]? = some k → Proper es k i) ∧
      ∀ {V : Type} (a : List V), a.length = names.length → ∀ (i : Nat) k v, names[i]? = some k → Proper es k v → ∃ x, a[i]? = some x ∧ get a v = .ok x := by
  have hd := declare_plain 0 names 0 [] (by simp [nextValue])
  obtain ⟨es, h1, h2, h3⟩ := ended he hd (fun i => by
    rcases Nat.lt_or_ge i names.length with h | h
    · left; constructor <;> omega
    · exact .inr h)
  have h2 : ∀ k v, Proper es k v ↔ ∃ i : Nat, names[i]? = some k ∧ v = i := by simpa using h2
  have inj : ∀ {i j k : Nat}, names[i]? = some k → names[j]? = some k → i = j := by
    intro i j k hi hj
    obtain ⟨hi1, hi2⟩ := List.getElem?_eq_some_iff.1 hi
    obtain ⟨hj1, hj2⟩ := List.getElem?_eq_some_iff.1 hj
    exact (hn.getElem_inj_iff (hi := hi1) (hj := hj1)).1 (by rw [hi2, hj2])
  refine ⟨es, h1, ?_, ⟨?_, ?_⟩, ?_, ?_⟩
  · rw [h3]
    split
    · rename_i h; rw [h]; rfl
    · rename_i h
      have : 0 < names.length := List.length_pos_iff.2 h
      congr 1; omega
  · intro k v h
    obtain ⟨i, hi, rfl⟩ := (h2 k v).1 h
    have := (List.getElem?_eq_some_iff.1 hi).1
    constructor <;> omega
  · intro j hj
    refine ⟨names[j], (h2 _ _).2 ⟨j, List.getElem?_eq_getElem hj, rfl⟩, ?_⟩
    intro k hk
    obtain ⟨i, hi, hij⟩ := (h2 _ _).1 hk
    obtain rfl : j = i := by exact_mod_cast hij
    rw [List.getElem?_eq_getElem hj] at hi
    exact (Option.some.inj hi).symm
  · intro i k hi
    exact (h2 _ _).2 ⟨i, hi, rfl⟩
  · intro V a ha i k v hi hv
    obtain ⟨j, hj, rfl⟩ := (h2 _ _).1 hv
    obtain rfl := inj hi hj
    have hl := (List.getElem?_eq_some_iff.1 hi).1
    have hla : i < a.length := by omega
    refine ⟨a[i], List.getElem?_eq_getElem hla, ?_⟩
    have : toSizeT (i : Int) = i := by unfold toSizeT; omega
    unfold get
    rw [this]
    exact rd_ok hla

private theorem pred_mod {n : Nat} (h : n < 2 ^ 64 - 1) : (n + 1 + (2 ^ 64 - 1)) % 2 ^ 64 = n := by omega

/-- **C157** The flags of such an enumeration are those of C44: enumerator number `i` has the value that C44 assumes, and the greatest flag is the last enumerator.  The same for
enumerators with the values 1, 2, 4, ... that are not automatic. -/
theorem C157_flags {names : List Nat} (hn : names ≠ []) {e : Item} (he : End names e) (auto : Bool) (hlen : names.length ≤ if auto then 2 ^ 63 else 63) :
    ∃ es, declare [] ((if auto then plain names else powers 0 names) ++ [e]) = some es ∧
      flagMax es none = some (Flags.Cfg.maxValue ⟨names.length - 1, auto⟩) ∧
      ∀ k v, Proper es k v ↔ ∃ i : Nat, names[i]? = some k ∧ v = Flags.Cfg.value ⟨names.length - 1, auto⟩ i := by
  have hpos : 0 < names.length := List.length_pos_iff.2 hn
  cases auto with
  | true =>
    simp only [if_true] at hlen ⊢
    have hd := declare_plain 0 names 0 [] (by simp [nextValue])
    obtain ⟨es, h1, h2, h3⟩ := ended he hd (fun i => by
      rcases Nat.lt_or_ge i names.length with h | h
      · left; constructor <;> omega
      · exact .inr h)
    refine ⟨es, h1, ?_, by simpa [Flags.Cfg.value] using h2⟩
    unfold flagMax
    rw [h3, if_neg hn]
    simp only [Option.map_some, Flags.Cfg.maxValue, Flags.Cfg.value, if_true]
    rw [pred_mod (by omega)]
    simp
  | false =>
    simp only [Bool.false_eq_true, if_false] at hlen ⊢
    have hd := declare_powers names 0 []
    have hp : ∀ i, i < names.length → (2 : Int) ^ i < 2 ^ 64 - 1 := by
      intro i hi
      have : (2 : Int) ^ i ≤ 2 ^ 62 := pow_le_pow_right₀ (by omega) (by omega)
      omega
    obtain ⟨es, h1, h2, h3⟩ := ended he hd (fun i => by
      rcases Nat.lt_or_ge i names.length with h | h
      · exact .inl ⟨by positivity, hp i h⟩
      · exact .inr h)
    refine ⟨es, h1, ?_, by simpa [Flags.Cfg.value] using h2⟩
    unfold flagMax
    rw [h3, if_neg hn]
    simp only [Option.map_some, Flags.Cfg.maxValue, Flags.Cfg.value, Bool.false_eq_true, if_false]
    have h := hp (names.length - 1) (by omega)
    have hcast : ((2 : Int) ^ (names.length - 1)) = ((2 ^ (names.length - 1) : Nat) : Int) := by push_cast; rfl
    rw [hcast] at h ⊢
    rw [Int.toNat_natCast]
    rw [pred_mod (by omega)]

/-! ### Declarations that give something else -/

/-- **C157, violated** An enumeration with both `Count` and `Max` has no arrays and, unless `EnumAsFlags` tells the last flag, no flags: the program does not compile. -/
theorem C157_both_violated {es : List (Name × Int)} {c m : Int} (hc : valueIn es .count = some c) (hm : valueIn es .max = some m) :
    enumValueCount es = none ∧ flagMax es none = none := by
  unfold flagMax enumValueCount
  rw [hc, hm]; exact ⟨rfl, rfl⟩

/-- **C157, violated** `Max` without initialiser after the last enumerator: the arrays have an element that belongs to no enumerator. -/
theorem C157_max_violated {names : List Nat} (hlen : names.length < 2 ^ 64 - 1) :
    ∃ es, declare [] (plain names ++ [⟨.max, .next⟩]) = some es ∧ enumValueCount es = some (names.length + 1) ∧ ∀ k, ¬ Proper es k names.length := by
  have hd := declare_plain 0 names 0 [] (by simp [nextValue])
  refine ⟨_, by rw [declare_append, hd]; rfl, ?_, ?_⟩
  · rw [next_listed 0 names 0 [] (by simp [nextValue])]
    unfold enumValueCount
    rw [show valueIn _ .count = none from lookup_none (fun v hv => by
      rcases List.mem_cons.1 hv with h | h
      · cases (Prod.mk.inj h).1
      · exact count_listed (by simp) v h)]
    simp only [valueIn, List.lookup, beq_self_eq_true, valueCount, toSizeT]
    congr 1; push_cast; omega
  · intro k hk
    rcases List.mem_cons.1 hk with h | h
    · cases (Prod.mk.inj h).1
    · rcases (mem_listed _ _ _).1 h with h | ⟨i, _, hi, _, hv⟩
      · cases h
      · have := (List.getElem?_eq_some_iff.1 hi).1
        simp at hv; omega

/-- **C157, violated** Enumerators declared after `Count` have no element: reading it is undefined. -/
theorem C157_after_violated {names after : List Nat} (hlen : names.length + after.length < 2 ^ 64 - 1) :
    ∃ es, declare [] (plain names ++ ⟨.count, .next⟩ :: plain after) = some es ∧ enumValueCount es = some names.length ∧
      ∀ (i : Nat) k, after[i]? = some k → Proper es k (names.length + 1 + i) ∧
        ∀ {V : Type} (a : List V), a.length = names.length → get a (names.length + 1 + i) = .error .ub := by
  have hd := declare_plain 0 names 0 [] (by simp [nextValue])
  have hnx := next_listed 0 names 0 [] (by simp [nextValue])
  have hd2 := declare_plain (names.length + 1) after 0 ((.count, (names.length : Int)) :: listed (fun i => (i : Int) + 0) 0 names []) (by simp [nextValue])
  refine ⟨listed (fun i => (i : Int) + (names.length + 1)) 0 after ((.count, (names.length : Int)) :: listed (fun i => (i : Int) + 0) 0 names []), ?_, ?_, ?_⟩
  · rw [declare_append, hd]
    simp only [Option.bind_some, declare, valueOf, hnx]
    simpa using hd2
  · unfold enumValueCount
    rw [show valueIn _ .max = none from lookup_none (max_listed (fun v hv => by
      rcases List.mem_cons.1 hv with h | h
      · cases (Prod.mk.inj h).1
      · exact max_listed (by simp) v h))]
    rw [valueIn, lookup_listed (by simp)]
    simp only [List.lookup, beq_self_eq_true, valueCount, toSizeT]
    congr 1; omega
  · intro i k hi
    refine ⟨(mem_listed _ _ _).2 (.inr ⟨i, k, hi, rfl, by simp; omega⟩), ?_⟩
    intro V a ha
    have := (List.getElem?_eq_some_iff.1 hi).1
    unfold get
    exact rd_ub (by unfold toSizeT; omega)

/-- **C157, violated** An alias as last enumerator before `Count` (`First = A, Count`): the arrays end with the enumerator it names, those after that one have no element. -/
theorem C157_alias_violated {names : List Nat} (hn : names.Nodup) (hlen : names.length < 2 ^ 64) {i : Nat} {k second : Nat} (hi : names[i]? = some k) :
    ∃ es, declare [] (plain names ++ [⟨.other second, .same (.other k)⟩, ⟨.count, .next⟩]) = some es ∧ enumValueCount es = some (i + 1) ∧
      ∀ (j : Nat) k', names[j]? = some k' → i < j → Proper es k' j ∧ ∀ {V : Type} (a : List V), a.length = i + 1 → get a j = .error .ub := by
  have hd := declare_plain 0 names 0 [] (by simp [nextValue])
  have hil := (List.getElem?_eq_some_iff.1 hi).1
  have hlook : (listed (fun i => (i : Int) + 0) 0 names []).lookup (.other k) = some (i : Int) := by
    rw [lookup_unique (v := (i : Int)) ((mem_listed _ _ _).2 (.inr ⟨i, k, hi, rfl, by simp⟩))]
    intro v hv
    rcases (mem_listed _ _ _).1 hv with h | ⟨j, k', hj, hk, hv⟩
    · cases h
    · cases hk
      obtain ⟨hi1, hi2⟩ := List.getElem?_eq_some_iff.1 hi
      obtain ⟨hj1, hj2⟩ := List.getElem?_eq_some_iff.1 hj
      have := (hn.getElem_inj_iff (hi := hi1) (hj := hj1)).1 (by rw [hi2, hj2])
      simp at hv; omega
  refine ⟨(.count, (i : Int) + 1) :: (.other second, (i : Int)) :: listed (fun i => (i : Int) + 0) 0 names [], ?_, ?_, ?_⟩
  · rw [declare_append, hd]
    simp only [Option.bind_some, declare, valueOf, hlook, nextValue]
  · unfold enumValueCount
    rw [show valueIn _ .max = none from lookup_none (fun v hv => by
      rcases List.mem_cons.1 hv with h | h
      · cases (Prod.mk.inj h).1
      · rcases List.mem_cons.1 h with h | h
        · cases (Prod.mk.inj h).1
        · exact max_listed (by simp) v h)]
    simp only [valueIn, List.lookup, beq_self_eq_true, valueCount, toSizeT]
    congr 1; omega
  · intro j k' hj hij
    have := (List.getElem?_eq_some_iff.1 hj).1
    refine ⟨List.mem_cons_of_mem _ (List.mem_cons_of_mem _ ((mem_listed _ _ _).2 (.inr ⟨j, k', hj, rfl, by simp⟩))), ?_⟩
    intro V a ha
    unfold get
    exact rd_ub (by unfold toSizeT; omega)

/-- **C157, violated** A first enumerator with a value above zero: the elements below belong to no enumerator. -/
theorem C157_first_violated {names : List Nat} {k first : Nat} (hlen : first + names.length + 1 < 2 ^ 64) :
    ∃ es, declare [] (⟨.other k, .value first⟩ :: (plain names ++ [⟨.count, .next⟩])) = some es ∧ enumValueCount es = some (first + names.length + 1) ∧
      ∀ j : Nat, j < first → ∀ k', ¬ Proper es k' j := by
  have hd := declare_plain (first + 1) names 0 [(.other k, (first : Int))] (by simp [nextValue])
  have hnx := next_listed (first + 1) names 0 [(.other k, (first : Int))] (by simp [nextValue])
  refine ⟨(.count, (first : Int) + names.length + 1) :: listed (fun i => (i : Int) + (first + 1)) 0 names [(.other k, (first : Int))], ?_, ?_, ?_⟩
  · show declare [(.other k, (first : Int))] (plain names ++ [⟨.count, .next⟩]) = _
    rw [declare_append, hd]
    simp only [Option.bind_some, declare, valueOf, hnx]
    congr 3; push_cast; omega
  · unfold enumValueCount
    rw [show valueIn _ .max = none from lookup_none (fun v hv => by
      rcases List.mem_cons.1 hv with h | h
      · cases (Prod.mk.inj h).1
      · exact max_listed (by simp) v h)]
    simp only [valueIn, List.lookup, beq_self_eq_true, valueCount, toSizeT]
    congr 1; omega
  · intro j hj k' hk
    rcases List.mem_cons.1 hk with h | h
    · cases (Prod.mk.inj h).1
    · rcases (mem_listed _ _ _).1 h with h | ⟨i, _, hi, _, hv⟩
      · simp at h; omega
      · simp at hv; omega

/-- **C157, violated** Flags of an enumeration with no enumerator but `Count`: the greatest flag is the greatest `std::size_t`, and the program does not compile. -/
theorem C157_empty_violated : ∃ es, declare [] [⟨.count, .next⟩] = some es ∧ enumValueCount es = some 0 ∧
    ∃ m, flagMax es none = some m ∧ m = 2 ^ 64 - 1 ∧ Flags.valueMask ⟨m, true⟩ = .error .ub := by
  refine ⟨[(.count, 0)], rfl, rfl, 2 ^ 64 - 1, rfl, rfl, ?_⟩
  unfold Flags.valueMask guardUB
  rw [if_neg (by simp [Flags.Cfg.maxValue, Flags.Cfg.value])]
  rfl

/-! ### Examples: `enum class E { A, B, C, Count }`, `enum class E { A, B, C, Max = C }`, `enum class E { A = 1, B = 2, C = 4, Max = C }` -/

example : (declare [] (plain [0, 1, 2] ++ [⟨.count, .next⟩])) = some [(.count, 3), (.other 2, 2), (.other 1, 1), (.other 0, 0)] ∧
    End [0, 1, 2] ⟨.count, .next⟩ ∧ End [0, 1, 2] ⟨.max, .same (.other 2)⟩ ∧ [0, 1, 2].Nodup :=
  ⟨rfl, .inl rfl, .inr ⟨2, rfl, rfl⟩, by decide⟩

example : (declare [] (powers 0 [0, 1, 2] ++ [⟨.max, .same (.other 2)⟩])).map (flagMax · none) = some (some 4) := by decide +kernel

example : (declare [] (plain [0, 1] ++ [⟨.count, .next⟩, ⟨.max, .same (.other 1)⟩])).map enumValueCount = some none := by decide +kernel

end Verif.EnumArray.Decl
