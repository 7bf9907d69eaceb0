import Verif.TypeName.Model
import Mathlib.Tactic.Linarith
import Mathlib.Tactic.IntervalCases
import Mathlib.Tactic.FinCases
import Mathlib.Data.Nat.Find

/-!
# Property theorems for `TypeName` (C58)
-/

namespace Verif.TypeName

open Verif.Cpp

/-- Where a string can be searched: shorter than the address space. -/
def Real (s : Str) : Prop := s.length < 2 ^ 63

/-- `find` gives the first occurrence. -/
theorem find_first {pat pre rest : Str} (h : ∀ i < pre.length, ¬ pat <+: (pre ++ (pat ++ rest)).drop i) (k : Nat) :
    find pat (pre ++ (pat ++ rest)) k = k + pre.length := by
  induction pre generalizing k with
  | nil =>
    have hp : pat.isPrefixOf (pat ++ rest) = true := by rw [List.isPrefixOf_iff_prefix]; exact List.prefix_append _ _
    rw [List.nil_append]
    cases hr : pat ++ rest with
    | nil => rw [hr] at hp; unfold find; rw [if_pos hp]; rfl
    | cons c s => rw [hr] at hp; unfold find; rw [if_pos hp]; rfl
  | cons c pre ih =>
    have h0 := h 0 (by simp)
    rw [List.drop_zero] at h0
    rw [List.cons_append] at h0 ⊢
    unfold find
    rw [if_neg (by rw [List.isPrefixOf_iff_prefix]; exact h0), ih]
    · simp; omega
    · intro i hi
      have := h (i + 1) (by simpa using hi)
      simpa using this

/-- `find_last_of` gives the last index up to `pos` with a character of the set, if there is one. -/
theorem findLastOf_some {s set : Str} {pos j : Nat} (hj : j ≤ pos) {c : Char} (hc : s[j]? = some c) (hm : c ∈ set)
    (hlast : ∀ i c, j < i → i ≤ pos → s[i]? = some c → c ∉ set) : findLastOf s set pos = j := by
  induction pos with
  | zero =>
    obtain rfl : j = 0 := by omega
    unfold findLastOf; rw [hc]; simp [hm]
  | succ pos ih =>
    unfold findLastOf
    by_cases h : j = pos + 1
    · subst h; rw [hc]; simp [hm]
    · have hr := ih (by omega) (fun i c h1 h2 => hlast i c h1 (by omega))
      cases hs : s[pos + 1]? with
      | none => simp [hr]
      | some d => simp [hlast (pos + 1) d (by omega) (le_refl _) hs, hr]

theorem findLastOf_none {s set : Str} {pos : Nat} (hnone : ∀ i c, i ≤ pos → s[i]? = some c → c ∉ set) : findLastOf s set pos = npos := by
  induction pos with
  | zero =>
    unfold findLastOf
    cases hs : s[0]? with
    | none => rfl
    | some d => simp [hnone 0 d (le_refl _) hs]
  | succ pos ih =>
    unfold findLastOf
    have hr := ih (fun i c h1 => hnone i c (by omega))
    cases hs : s[pos + 1]? with
    | none => simp [hr]
    | some d => simp [hnone (pos + 1) d (le_refl _) hs, hr]

/-- What the form of the signature has to meet: the text before the type has no earlier prefix, the text after the type starts with a
closing character, and has no other within reach. -/
structure Layout (P : Params) (pre post : Str) : Prop where
  first : ∀ rest : Str, ∀ i < pre.length, ¬ P.prefix' <+: (pre ++ (P.prefix' ++ rest)).drop i
  nonempty : 0 < pre.length
  clean : ∀ c ∈ P.prefix', c ∉ P.suffixes
  post_head : ∃ c tail, post = c :: tail ∧ c ∈ P.suffixes ∧ ∀ i d, tail[i]? = some d → d ∈ P.suffixes → pre.length < P.prefix'.length + 1 + i

theorem typeName_eval {P : Params} {pre post name : Str} (L : Layout P pre post) (hreal : Real (pre ++ (P.prefix' ++ (name ++ post)))) :
    (findLastOf (P.prefix' ++ (name ++ post)) P.suffixes pre.length = npos →
      typeName P (pre ++ (P.prefix' ++ (name ++ post))) = .ok (stripFirst P.strip (name ++ post))) ∧
    (∀ j, findLastOf (P.prefix' ++ (name ++ post)) P.suffixes pre.length = P.prefix'.length + j → j ≤ name.length →
      typeName P (pre ++ (P.prefix' ++ (name ++ post))) = .ok (stripFirst P.strip (name.take j))) := by
  unfold Real at hreal
  simp only [List.length_append] at hreal
  have hf := find_first (L.first (name ++ post)) 0
  rw [Nat.zero_add] at hf
  have hne := L.nonempty
  have hnp : (pre.length != npos) = true := by simp [npos]; omega
  have hs : substr (pre ++ (P.prefix' ++ (name ++ post))) pre.length npos = .ok (P.prefix' ++ (name ++ post)) := by
    unfold substr
    rw [if_pos (by simp), List.drop_left, List.take_of_length_le (by simp [npos]; omega)]
  have hd : ∀ n, substr (pre ++ (P.prefix' ++ (name ++ post))) (pre.length + P.prefix'.length) n = .ok ((name ++ post).take n) := by
    intro n
    unfold substr
    rw [if_pos (by simp), ← List.append_assoc, ← List.length_append, List.drop_left]
  have hp : (pre.length + P.prefix'.length) % 2 ^ 64 = pre.length + P.prefix'.length := Nat.mod_eq_of_lt (by omega)
  constructor
  · intro h
    have he : (npos + pre.length) % 2 ^ 64 = pre.length - 1 := by unfold npos; omega
    have he' : (pre.length - 1 != npos) = true := by simp [npos]; omega
    unfold typeName
    simp only [hf, hnp, assert_true, ok_bind, hs, h, he, he', hp, hd, pure_ok]
    rw [List.take_of_length_le (by simp; omega)]
  · intro j h hj
    have he : (P.prefix'.length + j + pre.length) % 2 ^ 64 = pre.length + P.prefix'.length + j := by omega
    have he' : (pre.length + P.prefix'.length + j != npos) = true := by simp [npos]; omega
    have hm : (pre.length + P.prefix'.length + j + 2 ^ 64 - (pre.length + P.prefix'.length)) % 2 ^ 64 = j := by omega
    unfold typeName
    simp only [hf, hnp, assert_true, ok_bind, hs, h, he, he', hp, hm, hd, pure_ok]
    rw [List.take_append_of_le_length hj]

theorem rest_get {P : Params} {name post : Str} {i : Nat} {c : Char} (h : (P.prefix' ++ (name ++ post))[i]? = some c) :
    (i < P.prefix'.length ∧ c ∈ P.prefix') ∨
    (P.prefix'.length ≤ i ∧ i < P.prefix'.length + name.length ∧ name[i - P.prefix'.length]? = some c) ∨
    (P.prefix'.length + name.length ≤ i ∧ post[i - P.prefix'.length - name.length]? = some c) := by
  by_cases h1 : i < P.prefix'.length
  · rw [List.getElem?_append_left h1] at h
    exact .inl ⟨h1, List.mem_of_getElem? h⟩
  · rw [List.getElem?_append_right (by omega)] at h
    by_cases h2 : i - P.prefix'.length < name.length
    · rw [List.getElem?_append_left h2] at h
      exact .inr (.inl ⟨by omega, by omega, h⟩)
    · rw [List.getElem?_append_right (by omega)] at h
      exact .inr (.inr ⟨by omega, h⟩)

/-- Types whose spelling is short enough for the search come out right, whatever their characters. -/
theorem typeName_short {P : Params} {pre post name : Str} (L : Layout P pre post) (hreal : Real (pre ++ (P.prefix' ++ (name ++ post))))
    (h : P.prefix'.length + name.length ≤ pre.length) :
    typeName P (pre ++ (P.prefix' ++ (name ++ post))) = .ok (stripFirst P.strip name) := by
  obtain ⟨c, tail, rfl, hc, htail⟩ := L.post_head
  have := (typeName_eval L hreal).2 name.length ?_ (le_refl _)
  · rw [this, List.take_length]
  · refine findLastOf_some h (c := c) ?_ hc ?_
    · rw [List.getElem?_append_right (by omega), List.getElem?_append_right (by omega)]
      simp
    · intro i d h1 h2 hd hmem
      rcases rest_get hd with ⟨h3, _⟩ | ⟨h3, h4, _⟩ | ⟨h3, h4⟩
      · omega
      · omega
      · obtain ⟨k, hk⟩ : ∃ k, i - P.prefix'.length - name.length = k + 1 := ⟨i - P.prefix'.length - name.length - 1, by omega⟩
        rw [hk, List.getElem?_cons_succ] at h4
        have := htail k d h4 hmem
        omega

/-- Types with a longer spelling: either the whole rest of the signature comes out, or the spelling is cut at one of its own characters. -/
theorem typeName_long {P : Params} {pre post name : Str} (L : Layout P pre post) (hreal : Real (pre ++ (P.prefix' ++ (name ++ post))))
    (h : pre.length < P.prefix'.length + name.length) :
    ((∀ i c, P.prefix'.length + i ≤ pre.length → name[i]? = some c → c ∉ P.suffixes) ∧
      typeName P (pre ++ (P.prefix' ++ (name ++ post))) = .ok (stripFirst P.strip (name ++ post))) ∨
    ∃ j c, name[j]? = some c ∧ c ∈ P.suffixes ∧ typeName P (pre ++ (P.prefix' ++ (name ++ post))) = .ok (stripFirst P.strip (name.take j)) := by
  classical
  by_cases hn : ∀ i c, P.prefix'.length + i ≤ pre.length → name[i]? = some c → c ∉ P.suffixes
  · refine .inl ⟨hn, (typeName_eval L hreal).1 (findLastOf_none ?_)⟩
    intro i c hi hc
    rcases rest_get hc with ⟨_, h4⟩ | ⟨h3, h4, h5⟩ | ⟨h3, h4⟩
    · exact L.clean c h4
    · exact hn _ c (by omega) h5
    · omega
  · right
    push Not at hn
    obtain ⟨i0, c0, hi0, hc0, hm0⟩ := hn
    let p : Nat → Prop := fun i => P.prefix'.length + i ≤ pre.length ∧ ∃ c, name[i]? = some c ∧ c ∈ P.suffixes
    have hpb : ∀ i, p i → i ≤ pre.length := fun i hi => by have := hi.1; omega
    obtain ⟨hj, c, hc, hm⟩ : p (Nat.findGreatest p pre.length) := Nat.findGreatest_spec (P := p) (m := i0) (by omega) ⟨hi0, c0, hc0, hm0⟩
    refine ⟨Nat.findGreatest p pre.length, c, hc, hm, (typeName_eval L hreal).2 _ ?_ ?_⟩
    · have hlt : Nat.findGreatest p pre.length < name.length := by
        rw [List.getElem?_eq_some_iff] at hc; exact hc.1
      refine findLastOf_some hj (c := c) ?_ hm ?_
      · rw [List.getElem?_append_right (by omega), List.getElem?_append_left (by omega), Nat.add_sub_cancel_left, hc]
      · intro i d h1 h2 hd hmem
        rcases rest_get hd with ⟨h3, _⟩ | ⟨h3, h4, h5⟩ | ⟨h3, h4⟩
        · omega
        · refine Nat.findGreatest_is_greatest (P := p) (n := pre.length) (k := i - P.prefix'.length) (by omega) (by omega) ⟨by omega, d, h5, hmem⟩
        · omega
    · rw [List.getElem?_eq_some_iff] at hc; exact le_of_lt hc.1

/-! ### The compilers -/

theorem gcc_layout : Layout gnuParams "constexpr std::string_view NzDetailTypeName() [with ".toList
    "; std::string_view = std::basic_string_view<char>]".toList where
  first := by
    intro rest i hi
    have hi : i < 52 := hi
    rw [← List.isPrefixOf_iff_prefix]
    interval_cases i <;> simp [gnuParams]
  nonempty := by decide
  clean := by decide
  post_head := ⟨';', _, rfl, by decide, by
    intro i d hd hm
    have hi : i < 49 := (List.getElem?_eq_some_iff.1 hd).1
    have key : ∀ i < 49, ∀ d, " std::string_view = std::basic_string_view<char>]".toList[i]? = some d → d ∈ gnuParams.suffixes → 52 < 4 + 1 + i := by
      intro i hi d hd hm
      by_contra hle
      have : i < 48 := by omega
      interval_cases i <;> simp at hd <;> subst hd <;> simp [gnuParams] at hm
    exact key i hi d hd hm⟩

theorem clang_layout : Layout gnuParams "std::string_view NzDetailTypeName() [".toList "]".toList where
  first := by
    intro rest i hi
    have hi : i < 37 := hi
    rw [← List.isPrefixOf_iff_prefix]
    interval_cases i <;> simp [gnuParams]
  nonempty := by decide
  clean := by decide
  post_head := ⟨']', [], rfl, by decide, by simp⟩

/-- No occurrence starts before the end of `pre` if `pre` has not the first character. -/
theorem no_early {pat pre rest : Str} {c : Char} {tail : Str} (hp : pat = c :: tail) (hc : c ∉ pre) :
    ∀ i < pre.length, ¬ pat <+: (pre ++ (pat ++ rest)).drop i := by
  rintro i hi ⟨t, ht⟩
  apply hc
  have h0 : ((pre ++ (pat ++ rest)).drop i)[0]? = some c := by rw [← ht, hp]; rfl
  rw [List.getElem?_drop, Nat.add_zero, List.getElem?_append_left hi] at h0
  exact List.mem_of_getElem? h0

theorem msvc_layout : Layout msvcParams "class std::basic_string_view<char,struct std::char_traits<char> > __cdecl ".toList ">(void)".toList where
  first := fun rest => no_early (c := 'N') (tail := "zDetailTypeName<".toList) rfl (by decide)
  nonempty := by decide
  clean := by decide
  post_head := by
    refine ⟨'>', "(void)".toList, rfl, by decide, ?_⟩
    have h : ∀ d ∈ "(void)".toList, d ∉ msvcParams.suffixes := by decide
    intro i d hd hm
    exact absurd hm (h d (List.mem_of_getElem? hd))

/-- No result can be the name if it is a proper beginning of the name, or the name with more text. -/
theorem not_name {r name post : Str} (hpost : post ≠ []) (h : r = name ++ post ∨ ∃ j c, name[j]? = some c ∧ r = name.take j) : r ≠ name := by
  rintro rfl
  rcases h with h | ⟨j, c, hc, h⟩
  · exact hpost (by simpa using h)
  · have := (List.getElem?_eq_some_iff.1 hc).1
    have h2 := congrArg List.length h
    rw [List.length_take] at h2
    omega

/-- A spelling of a type: text a compiler can write. -/
def Spelling (name : Str) : Prop := name.length < 2 ^ 62

theorem gcc_len (name : Str) (h : Spelling name) : Real (gccPretty name) := by
  unfold Real gccPretty; unfold Spelling at h
  rw [List.length_append, List.length_append, List.length_append]
  have h1 : "constexpr std::string_view NzDetailTypeName() [with ".toList.length = 52 := by decide
  have h2 : "T = ".toList.length = 4 := by decide
  have h3 : "; std::string_view = std::basic_string_view<char>]".toList.length = 50 := by decide
  omega

theorem clang_len (name : Str) (h : Spelling name) : Real (clangPretty name) := by
  unfold Real clangPretty; unfold Spelling at h
  rw [List.length_append, List.length_append, List.length_append]
  have h1 : "std::string_view NzDetailTypeName() [".toList.length = 37 := by decide
  have h2 : "T = ".toList.length = 4 := by decide
  have h3 : "]".toList.length = 1 := by decide
  omega

theorem msvc_len (name : Str) (h : Spelling name) : Real (msvcPretty name) := by
  unfold Real msvcPretty; unfold Spelling at h
  rw [List.length_append, List.length_append, List.length_append]
  have h1 : "class std::basic_string_view<char,struct std::char_traits<char> > __cdecl ".toList.length = 74 := by decide
  have h2 : "NzDetailTypeName<".toList.length = 17 := by decide
  have h3 : ">(void)".toList.length = 7 := by decide
  omega

/-- **C58** GCC: the name of a type comes out whole as long as its spelling has at most 48 characters, whatever the characters. -/
theorem C58_gcc_partial (name : Str) (h : name.length ≤ 48) : typeName gnuParams (gccPretty name) = .ok name :=
  typeName_short gcc_layout (gcc_len name (by unfold Spelling; omega)) (show 4 + name.length ≤ 52 by omega)

/-- **C58** GCC: the name of every type with a longer spelling comes out wrong. -/
theorem C58_gcc_violated (name : Str) (h : 48 < name.length) (hs : Spelling name) :
    ∃ r, typeName gnuParams (gccPretty name) = .ok r ∧ r ≠ name ∧
      ((∀ c ∈ name, c ≠ ';' ∧ c ≠ ']') → r = name ++ "; std::string_view = std::basic_string_view<char>]".toList) := by
  rcases typeName_long gcc_layout (gcc_len name hs) (show 52 < 4 + name.length by omega) with ⟨_, h2⟩ | ⟨j, c, hc, hm, h2⟩
  · exact ⟨_, h2, not_name (by decide) (.inl rfl), fun _ => rfl⟩
  · refine ⟨_, h2, not_name (post := [' ']) (by decide) (.inr ⟨j, c, hc, rfl⟩), ?_⟩
    intro hall
    have := hall c (List.mem_of_getElem? hc)
    simp [gnuParams] at hm
    rcases hm with rfl | rfl <;> simp at this

/-- **C58** Clang: at most 33 characters. -/
theorem C58_clang_partial (name : Str) (h : name.length ≤ 33) : typeName gnuParams (clangPretty name) = .ok name :=
  typeName_short clang_layout (clang_len name (by unfold Spelling; omega)) (show 4 + name.length ≤ 37 by omega)

/-- **C58** Clang: wrong for every longer one. -/
theorem C58_clang_violated (name : Str) (h : 33 < name.length) (hs : Spelling name) :
    ∃ r, typeName gnuParams (clangPretty name) = .ok r ∧ r ≠ name ∧ ((∀ c ∈ name, c ≠ ';' ∧ c ≠ ']') → r = name ++ [']']) := by
  rcases typeName_long clang_layout (clang_len name hs) (show 37 < 4 + name.length by omega) with ⟨_, h2⟩ | ⟨j, c, hc, hm, h2⟩
  · exact ⟨_, h2, not_name (by decide) (.inl rfl), fun _ => rfl⟩
  · refine ⟨_, h2, not_name (post := [' ']) (by decide) (.inr ⟨j, c, hc, rfl⟩), ?_⟩
    intro hall
    have := hall c (List.mem_of_getElem? hc)
    simp [gnuParams] at hm
    rcases hm with rfl | rfl <;> simp at this

theorem msvc_pre : "class std::basic_string_view<char,struct std::char_traits<char> > __cdecl ".toList.length = 74 := by decide

theorem msvc_prefix : msvcParams.prefix'.length = 17 := by decide

theorem msvc_form (name : Str) : msvcPretty name =
    "class std::basic_string_view<char,struct std::char_traits<char> > __cdecl ".toList ++ (msvcParams.prefix' ++ (name ++ ">(void)".toList)) := by
  have h : msvcParams.prefix' = "NzDetailTypeName<".toList := rfl
  rw [h]; unfold msvcPretty; rfl

/-- The name without its class key. -/
inductive Unkeyed : Str → Str → Prop where
  | cls (name) : Unkeyed ("class ".toList ++ name) name
  | struct (name) : Unkeyed ("struct ".toList ++ name) name
  | enum (name) : Unkeyed ("enum ".toList ++ name) name
  | plain (name) (h : ∀ k ∈ ["class ".toList, "struct ".toList, "enum ".toList, "enum struct".toList], ¬ k <+: name) : Unkeyed name name

theorem strip_unkeyed {spelled name : Str} (h : Unkeyed spelled name) : stripFirst msvcParams.strip spelled = name := by
  cases h with
  | cls => rfl
  | struct => rfl
  | enum => rfl
  | plain _ h =>
    have hp : ∀ k : Str, ¬ k <+: spelled → spelled.take k.length ≠ k := fun k hk he => hk (List.prefix_iff_eq_take.2 he.symm)
    have h1 := hp _ (h "class ".toList (by simp))
    have h2 := hp _ (h "struct ".toList (by simp))
    have h3 := hp _ (h "enum ".toList (by simp))
    have h4 : spelled.take "enum class ".toList.length ≠ "enum class ".toList := by
      refine hp _ (fun hk => h "enum ".toList (by simp) (List.IsPrefix.trans ⟨"class ".toList, rfl⟩ hk))
    have h5 := hp _ (h "enum struct".toList (by simp))
    show stripFirst ["class ".toList, "struct ".toList, "enum ".toList, "enum class ".toList, "enum struct".toList] spelled = spelled
    unfold stripFirst; rw [if_neg h1]
    unfold stripFirst; rw [if_neg h2]
    unfold stripFirst; rw [if_neg h3]
    unfold stripFirst; rw [if_neg h4]
    unfold stripFirst; rw [if_neg h5]
    rfl

/-- **C58** MSVC: the name comes out whole, without its class key, if the spelling with the key has at most 57 characters. -/
theorem C58_msvc_partial (spelled name : Str) (hk : Unkeyed spelled name) (h : spelled.length ≤ 57) :
    typeName msvcParams (msvcPretty spelled) = .ok name := by
  rw [← strip_unkeyed hk]
  have hl : msvcParams.prefix'.length + spelled.length ≤
      "class std::basic_string_view<char,struct std::char_traits<char> > __cdecl ".toList.length := by
    rw [msvc_pre, msvc_prefix]; omega
  rw [msvc_form]
  exact typeName_short (P := msvcParams) (name := spelled) msvc_layout (by rw [← msvc_form]; exact msvc_len spelled (by unfold Spelling; omega)) hl

/-- A spelling with a key, cut behind the key. -/
theorem cut_key {k name : Str} {j : Nat} {c : Char} (hj : (k ++ name)[j]? = some c) (hc : c ∉ k) :
    (k ++ name).take j = k ++ name.take (j - k.length) ∧ j - k.length < name.length := by
  have hkj : k.length ≤ j := by
    by_contra hlt
    rw [List.getElem?_append_left (by omega)] at hj
    exact hc (List.mem_of_getElem? hj)
  have hl := (List.getElem?_eq_some_iff.1 hj).1
  rw [List.length_append] at hl
  refine ⟨?_, by omega⟩
  rw [List.take_append, List.take_of_length_le hkj]

/-- **C58** MSVC: wrong for every longer one; without closing bracket in it, the rest of the signature comes with it. -/
theorem C58_msvc_violated (spelled name : Str) (hk : Unkeyed spelled name) (h : 57 < spelled.length) (hs : Spelling spelled) :
    ∃ r, typeName msvcParams (msvcPretty spelled) = .ok r ∧ r ≠ name ∧ ('>' ∉ spelled → r = name ++ ">(void)".toList) := by
  have hl : "class std::basic_string_view<char,struct std::char_traits<char> > __cdecl ".toList.length <
      msvcParams.prefix'.length + spelled.length := by rw [msvc_pre, msvc_prefix]; omega
  rw [msvc_form]
  rcases typeName_long (P := msvcParams) (name := spelled) msvc_layout (by rw [← msvc_form]; exact msvc_len spelled hs) hl with
    ⟨_, h2⟩ | ⟨j, c, hc, hm, h2⟩
  · have : Unkeyed (spelled ++ ">(void)".toList) (name ++ ">(void)".toList) := by
      cases hk with
      | cls => rw [List.append_assoc]; exact .cls _
      | struct => rw [List.append_assoc]; exact .struct _
      | enum => rw [List.append_assoc]; exact .enum _
      | plain _ hp =>
        refine .plain _ ?_
        intro k hk' hpre
        refine hp k hk' (List.prefix_of_prefix_length_le hpre (List.prefix_append _ _) ?_)
        fin_cases hk' <;> simp <;> omega
    rw [strip_unkeyed this] at h2
    exact ⟨_, h2, not_name (by decide) (.inl rfl), fun _ => rfl⟩
  · have hset : ∀ c ∈ msvcParams.suffixes, c = '>' := fun c hc => List.mem_singleton.1 hc
    obtain rfl := hset c hm
    have key : ∃ i, i < name.length ∧ Unkeyed (spelled.take j) (name.take i) := by
      cases hk with
      | cls => obtain ⟨h3, h4⟩ := cut_key hc (by decide); rw [h3]; exact ⟨_, h4, .cls _⟩
      | struct => obtain ⟨h3, h4⟩ := cut_key hc (by decide); rw [h3]; exact ⟨_, h4, .struct _⟩
      | enum => obtain ⟨h3, h4⟩ := cut_key hc (by decide); rw [h3]; exact ⟨_, h4, .enum _⟩
      | plain _ hp =>
        refine ⟨j, (List.getElem?_eq_some_iff.1 hc).1, .plain _ ?_⟩
        intro k hk' hpre
        exact hp k hk' (hpre.trans (List.take_prefix _ _))
    obtain ⟨i, hi, hu⟩ := key
    rw [strip_unkeyed hu] at h2
    refine ⟨_, h2, ?_, fun hb => absurd (List.mem_of_getElem? hc) hb⟩
    intro he
    have := congrArg List.length he
    rw [List.length_take] at this
    omega

/-! ### The hypotheses hold -/

example : typeName gnuParams (gccPretty "std::vector<int>".toList) = .ok "std::vector<int>".toList := C58_gcc_partial _ (by decide)

example : ("std::unordered_map<unsigned int, std::basic_string<char> >".toList).length = 58 := by decide

example : Unkeyed "class Nz::Vector3<float>".toList "Nz::Vector3<float>".toList := .cls _

end Verif.TypeName
