import Verif.Hash.Props
import Mathlib.Tactic.LinearCombination

/-!
# Property C165: FNV-1a and changes of a few consecutive bytes

Where two texts differ, the difference of the hashes is a polynomial in the prime whose coefficients are small (`horner`).  The lattices of the coefficients for which this
polynomial vanishes modulo 2^32 or 2^64 have no short vectors for at most 3 or 6 bytes; each linear form below is one coordinate in a reduced basis.
-/

namespace Verif.Hash
open Verif.Cpp

private theorem small {c : Int} (h : c < 1) (h' : -1 < c) : c = 0 := by omega

private theorem cancel {m d : Int} (hm : m ≠ 0) (h : m * d = 0) : d = 0 := (Int.mul_eq_zero.mp h).resolve_left hm

private theorem lattice32 (d0 d1 d2 k : Int) (h0 : -255 ≤ d0 ∧ d0 ≤ 255) (h1 : -510 ≤ d1 ∧ d1 ≤ 510) (h2 : -510 ≤ d2 ∧ d2 ≤ 510)
    (h : 4722706794290866467659 * d0 + 281488499309161 * d1 + 16777619 * d2 = 4294967296 * k) :
    d0 = 0 ∧ d1 = 0 ∧ d2 = 0 := by
  obtain ⟨l0, u0⟩ := h0
  obtain ⟨l1, u1⟩ := h1
  obtain ⟨l2, u2⟩ := h2
  have e0 : (-2758050) * d0 + 909034 * d1 + 3415982 * d2 = 4294967296 * (1275160154 * k + ((-1402154453821663652941) * d0 + (-83572910662810) * d1 + (-4981214) * d2)) := by linear_combination 1275160154 * h
  generalize 1275160154 * k + ((-1402154453821663652941) * d0 + (-83572910662810) * d1 + (-4981214) * d2) = c0 at e0
  have e1 : 1254223 * d0 + 1793237 * d1 + 379127 * d2 = 4294967296 * (644237709 * k + ((-708397898225272561598) * d0 + (-42222790863547) * d1 + (-2516614) * d2)) := by linear_combination 644237709 * h
  generalize 644237709 * k + ((-708397898225272561598) * d0 + (-42222790863547) * d1 + (-2516614) * d2) = c1 at e1
  have e2 : (-1365590) * d0 + 745966 * d1 + (-1080550) * d2 = 4294967296 * ((-626046786) * k + (688395325510334247079 * d0 + 41030573260147 * d1 + 2445554 * d2)) := by linear_combination (-626046786) * h
  generalize (-626046786) * k + (688395325510334247079 * d0 + 41030573260147 * d1 + 2445554 * d2) = c2 at e2
  clear h
  have z0 : c0 = 0 := small (by linarith only [e0, l0, u0, l1, u1, l2, u2]) (by linarith only [e0, l0, u0, l1, u1, l2, u2])
  rw [z0] at e0
  have z1 : c1 = 0 := small (by linarith only [e1, l0, u0, l1, u1, l2, u2]) (by linarith only [e1, l0, u0, l1, u1, l2, u2])
  rw [z1] at e1
  have z2 : c2 = 0 := small (by linarith only [e2, l0, u0, l1, u1, l2, u2]) (by linarith only [e2, l0, u0, l1, u1, l2, u2])
  rw [z2] at e2
  exact ⟨cancel (m := 4294967296) (by decide) (by linear_combination (-517) * e0 + 822 * e1 + (-1346) * e2),
    cancel (m := 4294967296) (by decide) (by linear_combination 195 * e0 + 1780 * e1 + 1241 * e2),
    cancel (m := 4294967296) (by decide) (by linear_combination 788 * e0 + 190 * e1 + (-1417) * e2)⟩

private theorem lattice64 (d0 d1 d2 d3 d4 d5 k : Int) (h0 : -255 ≤ d0 ∧ d0 ≤ 255) (h1 : -510 ≤ d1 ∧ d1 ≤ 510) (h2 : -510 ≤ d2 ∧ d2 ≤ 510) (h3 : -510 ≤ d3 ∧ d3 ≤ 510) (h4 : -510 ≤ d4 ∧ d4 ≤ 510) (h5 : -510 ≤ d5 ∧ d5 ≤ 510)
    (h : 1766847068972492629247551831954792705214492162438571578225036495793800761 * d0 + 1606938047437756339251907615453285773121308785567455066942051 * d1 + 1461501639643759632241992381230392390794884791441 * d2 + 1329227997362564068125063396651957931 * d3 + 1208925820571204291060521 * d4 + 1099511628211 * d5 = 18446744073709551616 * k) :
    d0 = 0 ∧ d1 = 0 ∧ d2 = 0 ∧ d3 = 0 ∧ d4 = 0 ∧ d5 = 0 := by
  obtain ⟨l0, u0⟩ := h0
  obtain ⟨l1, u1⟩ := h1
  obtain ⟨l2, u2⟩ := h2
  obtain ⟨l3, u3⟩ := h3
  obtain ⟨l4, u4⟩ := h4
  obtain ⟨l5, u5⟩ := h5
  have e0 : (-10117495039556816) * d0 + 644476066068496 * d1 + 7704392091402160 * d2 + (-4253954618046064) * d3 + (-3431600937981904) * d4 + 2518874921680656 * d5 = 18446744073709551616 * (4102797547569945776 * k + ((-392969935103227533190885545991440257305397686343117146005690571711204822) * d0 + (-357404073791037045422658076161118510003972127825717753150005) * d1 + (-325057111376406466637419055745195892772982837841) * d2 + (-295637720453491109074230210624505845) * d3 + (-268880940290298804073200) * d4 + (-244545790505) * d5)) := by linear_combination 4102797547569945776 * h
  generalize 4102797547569945776 * k + ((-392969935103227533190885545991440257305397686343117146005690571711204822) * d0 + (-357404073791037045422658076161118510003972127825717753150005) * d1 + (-325057111376406466637419055745195892772982837841) * d2 + (-295637720453491109074230210624505845) * d3 + (-268880940290298804073200) * d4 + (-244545790505) * d5) = c0 at e0
  have e1 : 10753435092956894 * d0 + 1503490379027114 * d1 + 2833942984976814 * d2 + (-84464088609638) * d3 + (-3509890893664258) * d4 + (-8107455562062582) * d5 = 18446744073709551616 * (4562491563806612942 * k + ((-436999874585583970831816886542122191904904198215967827908755383377151573) * d0 + (-397449070453779882140609186363651311545905516771653245189633) * d1 + (-361477823659276535953562318558262361851176491988) * d2 + (-328762165296452616575702841462618040) * d3 + (-299007447362222935201440) * d4 + (-271945689059) * d5)) := by linear_combination 4562491563806612942 * h
  generalize 4562491563806612942 * k + ((-436999874585583970831816886542122191904904198215967827908755383377151573) * d0 + (-397449070453779882140609186363651311545905516771653245189633) * d1 + (-361477823659276535953562318558262361851176491988) * d2 + (-328762165296452616575702841462618040) * d3 + (-299007447362222935201440) * d4 + (-271945689059) * d5) = c1 at e1
  have e2 : 964417354571113 * d0 + (-6415703093100941) * d1 + 1237812376006721 * d2 + (-6915764390345669) * d3 + 1040540266766169 * d4 + (-8671412534092605) * d5 = 18446744073709551616 * ((-7698100873003003727) * k + (737331580563570657932110612525534254928404305926659030660859056269710710 * d0 + 670599165707117227475023008604602406362939526987957230104346 * d1 + 609906387982671684496891271781764501736572100283 * d2 + 554706628228245154985056278167817273 * d3 + 504502739212317886474646 * d4 + 458842568162 * d5)) := by linear_combination (-7698100873003003727) * h
  generalize (-7698100873003003727) * k + (737331580563570657932110612525534254928404305926659030660859056269710710 * d0 + 670599165707117227475023008604602406362939526987957230104346 * d1 + 609906387982671684496891271781764501736572100283 * d2 + 554706628228245154985056278167817273 * d3 + 504502739212317886474646 * d4 + 458842568162 * d5) = c2 at e2
  have e3 : 6302646686563376 * d0 + (-1535281643037936) * d1 + 5452110822838448 * d2 + (-559839306353520) * d3 + 5164142811992368 * d4 + 4410605614494224 * d5 = 18446744073709551616 * ((-4580056007442358864) * k + (438682214061425655728678176443011999686400363070754696853674838533595055 * d0 + 398979149293035994365898221889298177452070063626801328769958 * d1 + 362869422256324283520732168251724655658626796517 * d2 + 330027816846961453113457479182553154 * d3 + 300158550741246002454332 * d4 + 272992611483 * d5)) := by linear_combination (-4580056007442358864) * h
  generalize (-4580056007442358864) * k + (438682214061425655728678176443011999686400363070754696853674838533595055 * d0 + 398979149293035994365898221889298177452070063626801328769958 * d1 + 362869422256324283520732168251724655658626796517 * d2 + 330027816846961453113457479182553154 * d3 + 300158550741246002454332 * d4 + 272992611483 * d5) = c3 at e3
  have e4 : (-1150927258463695) * d0 + 6373219910648459 * d1 + (-2407835907481655) * d2 + (-7420022407511405) * d3 + (-521531150890079) * d4 + 2434785518635867 * d5 = 18446744073709551616 * (3043126869017570233 * k + ((-291473648008057170094147153310363790948728672351678919036434508588461888) * d0 + (-265093738464876327145180722256746027384946637939017029141689) * d1 + (-241101350511596355929792759913913120565115996663) * d2 + (-219280400793840618993701437513348533) * d3 + (-199434362645739994370892) * d4 + (-181384496106) * d5)) := by linear_combination 3043126869017570233 * h
  generalize 3043126869017570233 * k + ((-291473648008057170094147153310363790948728672351678919036434508588461888) * d0 + (-265093738464876327145180722256746027384946637939017029141689) * d1 + (-241101350511596355929792759913913120565115996663) * d2 + (-219280400793840618993701437513348533) * d3 + (-199434362645739994370892) * d4 + (-181384496106) * d5) = c4 at e4
  have e5 : 4482579670404340 * d0 + (-5247281785750212) * d1 + (-1973864442898476) * d2 + (-1178876700584228) * d3 + (-4977183758088268) * d4 + 5046382459189116 * d5 = 18446744073709551616 * ((-5853314620625283948) * k + (560636161042912534874861024334354725436690121242318161133356573562424498 * d0 + 509895617889113001268103170134718171928477855957162586302721 * d1 + 463747362743909342020290392934741113096484215712 * d2 + 421775769209886568582068990146163835 * d3 + 383602827280828331563415 * d4 + 348884738859 * d5)) := by linear_combination (-5853314620625283948) * h
  generalize (-5853314620625283948) * k + (560636161042912534874861024334354725436690121242318161133356573562424498 * d0 + 509895617889113001268103170134718171928477855957162586302721 * d1 + 463747362743909342020290392934741113096484215712 * d2 + 421775769209886568582068990146163835 * d3 + 383602827280828331563415 * d4 + 348884738859 * d5) = c5 at e5
  clear h
  have z0 : c0 = 0 := small (by linarith only [e0, l0, u0, l1, u1, l2, u2, l3, u3, l4, u4, l5, u5]) (by linarith only [e0, l0, u0, l1, u1, l2, u2, l3, u3, l4, u4, l5, u5])
  rw [z0] at e0
  have z1 : c1 = 0 := small (by linarith only [e1, l0, u0, l1, u1, l2, u2, l3, u3, l4, u4, l5, u5]) (by linarith only [e1, l0, u0, l1, u1, l2, u2, l3, u3, l4, u4, l5, u5])
  rw [z1] at e1
  have z2 : c2 = 0 := small (by linarith only [e2, l0, u0, l1, u1, l2, u2, l3, u3, l4, u4, l5, u5]) (by linarith only [e2, l0, u0, l1, u1, l2, u2, l3, u3, l4, u4, l5, u5])
  rw [z2] at e2
  have z3 : c3 = 0 := small (by linarith only [e3, l0, u0, l1, u1, l2, u2, l3, u3, l4, u4, l5, u5]) (by linarith only [e3, l0, u0, l1, u1, l2, u2, l3, u3, l4, u4, l5, u5])
  rw [z3] at e3
  have z4 : c4 = 0 := small (by linarith only [e4, l0, u0, l1, u1, l2, u2, l3, u3, l4, u4, l5, u5]) (by linarith only [e4, l0, u0, l1, u1, l2, u2, l3, u3, l4, u4, l5, u5])
  rw [z4] at e4
  have z5 : c5 = 0 := small (by linarith only [e5, l0, u0, l1, u1, l2, u2, l3, u3, l4, u4, l5, u5]) (by linarith only [e5, l0, u0, l1, u1, l2, u2, l3, u3, l4, u4, l5, u5])
  rw [z5] at e5
  exact ⟨cancel (m := 18446744073709551616) (by decide) (by linear_combination (-498) * e0 + 715 * e1 + (-135) * e2 + 653 * e3 + 281 * e4 + 459 * e5),
    cancel (m := 18446744073709551616) (by decide) (by linear_combination 48 * e0 + 684 * e1 + (-939) * e2 + (-106) * e3 + 995 * e4 + (-926) * e5),
    cancel (m := 18446744073709551616) (by decide) (by linear_combination 1232 * e0 + 713 * e1 + (-191) * e2 + 943 * e3 + (-551) * e4 + (-356) * e5),
    cancel (m := 18446744073709551616) (by decide) (by linear_combination (-181) * e0 + 133 * e1 + (-970) * e2 + (-348) * e3 + (-1392) * e4 + (-387) * e5),
    cancel (m := 18446744073709551616) (by decide) (by linear_combination (-811) * e0 + (-943) * e1 + 527 * e2 + 1115 * e3 + 95 * e4 + (-1225) * e5),
    cancel (m := 18446744073709551616) (by decide) (by linear_combination 132 * e0 + (-544) * e1 + (-638) * e2 + 697 * e3 + 338 * e4 + 847 * e5)⟩

/-! ## Differences of hashes -/

/-- The hash of the rest of a text, from the hash of what is before. -/
private def foldFnv {w : Nat} (p : BitVec w) (x : BitVec w) (text : List Byte) : BitVec w := text.foldl (fun s c => fnvStep p s (c.setWidth w)) x

/-- The difference of two numbers modulo 2^w. -/
private def Diff {w : Nat} (x y : BitVec w) (e : Int) : Prop := ∃ k : Int, (x.toNat : Int) - y.toNat = e + 2 ^ w * k

private theorem Diff.mul {w : Nat} {x y : BitVec w} {e : Int} (h : Diff x y e) (p : BitVec w) : Diff (x * p) (y * p) (e * p.toNat) := by
  obtain ⟨k, h⟩ := h
  have m : ∀ z : BitVec w, ∃ k : Int, ((z * p).toNat : Int) = z.toNat * p.toNat + 2 ^ w * k := by
    intro z
    refine ⟨-((z.toNat * p.toNat / 2 ^ w : Nat) : Int), ?_⟩
    rw [BitVec.toNat_mul]
    have := Nat.div_add_mod (z.toNat * p.toNat) (2 ^ w)
    have : ((2 ^ w * (z.toNat * p.toNat / 2 ^ w) + z.toNat * p.toNat % 2 ^ w : Nat) : Int) = ((z.toNat * p.toNat : Nat) : Int) := by rw [this]
    push_cast at this ⊢
    linear_combination this
  obtain ⟨a, ha⟩ := m x
  obtain ⟨b, hb⟩ := m y
  exact ⟨k * p.toNat + a - b, by rw [ha, hb]; linear_combination (p.toNat : Int) * h⟩

private theorem Diff.eq {w : Nat} {x y : BitVec w} {k : Int} (h : Diff x y (2 ^ w * k)) : x = y := by
  obtain ⟨k', h⟩ := h
  have hx := x.isLt
  have hy := y.isLt
  apply BitVec.eq_of_toNat_eq
  have hx' : (x.toNat : Int) < 2 ^ w := by exact_mod_cast hx
  have hy' : (y.toNat : Int) < 2 ^ w := by exact_mod_cast hy
  have e : (x.toNat : Int) - y.toNat = 2 ^ w * (k + k') := by linear_combination h
  generalize (2 ^ w : Int) = M at *
  have hk : k + k' = 0 := by
    apply small
    · by_contra hc
      have : M * 1 ≤ M * (k + k') := Int.mul_le_mul_of_nonneg_left (by omega) (by omega)
      omega
    · by_contra hc
      have : M * (k + k') ≤ M * (-1) := Int.mul_le_mul_of_nonneg_left (by omega) (by omega)
      omega
  rw [hk, Int.mul_zero] at e
  omega

private theorem xor_high {w : Nat} (hw : 8 ≤ w) (x : BitVec w) (a : Byte) : (x ^^^ a.setWidth w).toNat / 256 = x.toNat / 256 := by
  have ha : (a.setWidth w).toNat = a.toNat := by
    rw [BitVec.toNat_setWidth]
    exact Nat.mod_eq_of_lt (Nat.lt_of_lt_of_le a.isLt (Nat.pow_le_pow_right (by omega) hw))
  have h : (x.toNat ^^^ a.toNat) >>> 8 = x.toNat >>> 8 := by
    rw [Nat.shiftRight_xor_distrib, Nat.shiftRight_eq_div_pow a.toNat, Nat.div_eq_of_lt a.isLt, Nat.xor_zero]
  rw [BitVec.toNat_xor, ha]
  simpa only [Nat.shiftRight_eq_div_pow] using h

private theorem diff_step {w : Nat} (hw : 8 ≤ w) (p : BitVec w) {x y : BitVec w} {e : Int} (h : Diff x y e) (a b : Byte) :
    ∃ d : Int, (-510 ≤ d ∧ d ≤ 510) ∧ Diff (fnvStep p x (a.setWidth w)) (fnvStep p y (b.setWidth w)) ((e + d) * p.toNat) := by
  have h1 := xor_high hw x a
  have h2 := xor_high hw y b
  obtain ⟨k, h⟩ := h
  refine ⟨((x ^^^ a.setWidth w).toNat : Int) - x.toNat - ((y ^^^ b.setWidth w).toNat - y.toNat), by omega, ?_⟩
  exact Diff.mul ⟨k, by linear_combination h⟩ p

private theorem diff_fold {w : Nat} (hw : 8 ≤ w) (p : BitVec w) (u : List Byte) : ∀ (v : List Byte) (x y : BitVec w) (e : Int), u.length = v.length → Diff x y e →
    ∃ ds : List Int, ds.length = u.length ∧ (∀ d ∈ ds, -510 ≤ d ∧ d ≤ 510) ∧ Diff (foldFnv p x u) (foldFnv p y v) (ds.foldl (fun e d => (e + d) * p.toNat) e) := by
  induction u with
  | nil =>
    intro v x y e hl h
    obtain rfl : v = [] := List.length_eq_zero_iff.mp hl.symm
    exact ⟨[], rfl, by simp, h⟩
  | cons a u ih =>
    intro v x y e hl h
    cases v with
    | nil => simp at hl
    | cons b v =>
      obtain ⟨d, hd, h'⟩ := diff_step hw p h a b
      obtain ⟨ds, e1, e2, e3⟩ := ih v _ _ _ (by simpa using hl) h'
      refine ⟨d :: ds, by simp [e1], ?_, e3⟩
      intro c hc
      rcases List.mem_cons.mp hc with rfl | hc
      · exact hd
      · exact e2 c hc

/-- If the lattice has no short vectors, pieces of at most `n` bytes are told apart. -/
private theorem pieces {w : Nat} (hw : 8 ≤ w) (p : BitVec w) (n : Nat)
    (hl : ∀ (D : Int) (ds : List Int), ds.length + 1 ≤ n → (-255 ≤ D ∧ D ≤ 255) → (∀ d ∈ ds, -510 ≤ d ∧ d ≤ 510) →
      (∃ k : Int, ds.foldl (fun e d => (e + d) * (p.toNat : Int)) (D * p.toNat) = 2 ^ w * k) → D = 0)
    (u : List Byte) : ∀ (v : List Byte) (x : BitVec w), u.length = v.length → u.length ≤ n → foldFnv p x u = foldFnv p x v → u = v := by
  induction u with
  | nil => intro v x h _ _; exact (List.length_eq_zero_iff.mp h.symm).symm
  | cons a u ih =>
    intro v x h hn he
    cases v with
    | nil => simp at h
    | cons b v =>
      simp only [List.length_cons, Nat.add_right_cancel_iff] at h hn
      by_cases hab : a = b
      · subst hab
        rw [ih v (fnvStep p x (a.setWidth w)) h (by omega) he]
      · exfalso
        apply hab
        have h1 := xor_high hw x a
        have h2 := xor_high hw x b
        have hd : Diff (x ^^^ a.setWidth w) (x ^^^ b.setWidth w) (((x ^^^ a.setWidth w).toNat : Int) - (x ^^^ b.setWidth w).toNat) := ⟨0, by simp⟩
        obtain ⟨ds, e1, e2, k, e3⟩ := diff_fold hw p u v _ _ _ h (hd.mul p)
        have h0 := hl (((x ^^^ a.setWidth w).toNat : Int) - (x ^^^ b.setWidth w).toNat) ds (by omega) (by omega) e2 ⟨-k, by
          have e4 : foldFnv p ((x ^^^ a.setWidth w) * p) u = foldFnv p ((x ^^^ b.setWidth w) * p) v := he
          rw [e4] at e3
          linear_combination -e3⟩
        have h3 : (x ^^^ a.setWidth w) = (x ^^^ b.setWidth w) := BitVec.eq_of_toNat_eq (by omega)
        exact setWidth_inj hw a b (xor_right_cancel' h3)

private theorem pieces32 : ∀ (u v : List Byte) (x : BitVec 32), u.length = v.length → u.length ≤ 3 → foldFnv fnvPrime32 x u = foldFnv fnvPrime32 x v → u = v := by
  apply pieces (by decide) fnvPrime32 3
  rw [show fnvPrime32.toNat = 16777619 from rfl]
  intro D ds hn hD hds
  have hD' : -510 ≤ D ∧ D ≤ 510 := by omega
  have z : -510 ≤ (0 : Int) ∧ (0 : Int) ≤ 510 := by omega
  have z' : -255 ≤ (0 : Int) ∧ (0 : Int) ≤ 255 := by omega
  rintro ⟨k, hk⟩
  match ds, hn, hds, hk with
  | [], _, _, hk =>
    simp only [List.foldl_nil] at hk
    exact (lattice32 0 0 D k z' z hD' (by linear_combination hk)).2.2
  | [a], _, hds, hk =>
    simp only [List.foldl_cons, List.foldl_nil] at hk
    exact (lattice32 0 D a k z' hD' (hds a (by simp)) (by linear_combination hk)).2.1
  | [a, b], _, hds, hk =>
    simp only [List.foldl_cons, List.foldl_nil] at hk
    exact (lattice32 D a b k hD (hds a (by simp)) (hds b (by simp)) (by linear_combination hk)).1
  | _ :: _ :: _ :: _, hn, _, hk => clear hk; simp only [List.length_cons] at hn; omega

private theorem pieces64 : ∀ (u v : List Byte) (x : BitVec 64), u.length = v.length → u.length ≤ 6 → foldFnv fnvPrime64 x u = foldFnv fnvPrime64 x v → u = v := by
  apply pieces (by decide) fnvPrime64 6
  rw [show fnvPrime64.toNat = 1099511628211 from rfl]
  intro D ds hn hD hds
  have hD' : -510 ≤ D ∧ D ≤ 510 := by omega
  have z : -510 ≤ (0 : Int) ∧ (0 : Int) ≤ 510 := by omega
  have z' : -255 ≤ (0 : Int) ∧ (0 : Int) ≤ 255 := by omega
  rintro ⟨k, hk⟩
  match ds, hn, hds, hk with
  | [], _, _, hk =>
    simp only [List.foldl_nil] at hk
    exact (lattice64 0 0 0 0 0 D k z' z z z z hD' (by linear_combination hk)).2.2.2.2.2
  | [a], _, hds, hk =>
    simp only [List.foldl_cons, List.foldl_nil] at hk
    exact (lattice64 0 0 0 0 D a k z' z z z hD' (hds a (by simp)) (by linear_combination hk)).2.2.2.2.1
  | [a, b], _, hds, hk =>
    simp only [List.foldl_cons, List.foldl_nil] at hk
    exact (lattice64 0 0 0 D a b k z' z z hD' (hds a (by simp)) (hds b (by simp)) (by linear_combination hk)).2.2.2.1
  | [a, b, c], _, hds, hk =>
    simp only [List.foldl_cons, List.foldl_nil] at hk
    exact (lattice64 0 0 D a b c k z' z hD' (hds a (by simp)) (hds b (by simp)) (hds c (by simp)) (by linear_combination hk)).2.2.1
  | [a, b, c, d], _, hds, hk =>
    simp only [List.foldl_cons, List.foldl_nil] at hk
    exact (lattice64 0 D a b c d k z' hD' (hds a (by simp)) (hds b (by simp)) (hds c (by simp)) (hds d (by simp)) (by linear_combination hk)).2.1
  | [a, b, c, d, e], _, hds, hk =>
    simp only [List.foldl_cons, List.foldl_nil] at hk
    exact (lattice64 D a b c d e k hD (hds a (by simp)) (hds b (by simp)) (hds c (by simp)) (hds d (by simp)) (hds e (by simp)) (by linear_combination hk)).1
  | _ :: _ :: _ :: _ :: _ :: _ :: _, hn, _, hk => clear hk; simp only [List.length_cons] at hn; omega

private theorem fnv32_eq (data : List Byte) : fnv32Buffer data data.length = .ok (foldFnv fnvPrime32 fnvBasis32 data) := by
  rw [fnv32Buffer, fnvBuffer_eq _ _ _ _ _ (Nat.le_refl _), List.take_length]; rfl

private theorem fnv64_eq (data : List Byte) : fnv64Buffer data data.length = .ok (foldFnv fnvPrime64 fnvBasis64 data) := by
  rw [fnv64Buffer, fnvBuffer_eq _ _ _ _ _ (Nat.le_refl _), List.take_length]; rfl

private theorem fold_append {w : Nat} (p x : BitVec w) (a b : List Byte) : foldFnv p x (a ++ b) = foldFnv p (foldFnv p x a) b := List.foldl_append

/-! ## The property -/

/-- C165: FNV-1a of 32 bits tells apart texts that differ within three consecutive bytes only. -/
theorem C165_window32 (a b : List Byte) (h : DifferWithin 3 a b) : ∃ x y, fnv32Buffer a a.length = .ok x ∧ fnv32Buffer b b.length = .ok y ∧ x ≠ y := by
  obtain ⟨pre, u, v, post, hl, h3, hne, rfl, rfl⟩ := h
  refine ⟨_, _, fnv32_eq _, fnv32_eq _, fun e => hne ?_⟩
  rw [fold_append, fold_append, fold_append, fold_append] at e
  exact pieces32 u v _ hl h3 (foldl_fnv_injective _ _ prime32_inv _ _ _ _ e)

/-- C165: FNV-1a of 64 bits tells apart texts that differ within six consecutive bytes only. -/
theorem C165_window64 (a b : List Byte) (h : DifferWithin 6 a b) : ∃ x y, fnv64Buffer a a.length = .ok x ∧ fnv64Buffer b b.length = .ok y ∧ x ≠ y := by
  obtain ⟨pre, u, v, post, hl, h6, hne, rfl, rfl⟩ := h
  refine ⟨_, _, fnv64_eq _, fnv64_eq _, fun e => hne ?_⟩
  rw [fold_append, fold_append, fold_append, fold_append] at e
  exact pieces64 u v _ hl h6 (foldl_fnv_injective _ _ prime64_inv _ _ _ _ e)

/-- C165: the same for strings, if `char` is unsigned or the characters are ASCII. -/
theorem C165_strings (charSigned : Bool) (a b : List Byte) (ha : charSigned = false ∨ ∀ c ∈ a, c.toNat < 128) (hb : charSigned = false ∨ ∀ c ∈ b, c.toNat < 128) :
    (DifferWithin 3 a b → ∃ x y, fnv32View charSigned a = .ok x ∧ fnv32View charSigned b = .ok y ∧ x ≠ y) ∧
    (DifferWithin 6 a b → ∃ x y, fnv64View charSigned a = .ok x ∧ fnv64View charSigned b = .ok y ∧ x ≠ y) := by
  have h1 := C49_fnv_partial charSigned a [] ha
  have h2 := C49_fnv_partial charSigned b [] hb
  rw [h1.1, h1.2.1, h2.1, h2.2.1]
  exact ⟨C165_window32 a b, C165_window64 a b⟩

/-! ## Longer pieces -/

/-- The bytes after which the low bytes before each multiplication are the given ones. -/
private def chosen {w : Nat} (p : BitVec w) : BitVec w → List Byte → List Byte
  | _, [] => []
  | x, l :: ls => (x.setWidth 8 ^^^ l) :: chosen p (fnvStep p x ((x.setWidth 8 ^^^ l).setWidth w)) ls

private theorem chosen_length {w : Nat} (p : BitVec w) (ls : List Byte) : ∀ x, (chosen p x ls).length = ls.length := by
  induction ls with
  | nil => intro x; rfl
  | cons l ls ih => intro x; simp [chosen, ih]

/-- The difference of the hashes for these bytes. -/
private def trace (p : Nat) : List (Byte × Byte) → Nat → Nat → Int → Int
  | [], _, _, e => e
  | (l, m) :: r, lx, ly, e => trace p r (l.toNat * p % 256) (m.toNat * p % 256) ((e - lx + ly + l.toNat - m.toNat) * p)

private theorem xor_low {w : Nat} (hw : 8 ≤ w) (x : BitVec w) (l : Byte) : (x ^^^ (x.setWidth 8 ^^^ l).setWidth w).toNat = x.toNat - x.toNat % 256 + l.toNat := by
  have h1 := xor_high hw x (x.setWidth 8 ^^^ l)
  have h2 : (x ^^^ (x.setWidth 8 ^^^ l).setWidth w).setWidth 8 = l := by
    apply BitVec.eq_of_getLsbD_eq
    intro i hi
    have : i < w := by omega
    simp [hi, this]
  have h3 := congrArg BitVec.toNat h2
  rw [BitVec.toNat_setWidth] at h3
  omega

private theorem mul_low {w : Nat} (hw : 8 ≤ w) (x p : BitVec w) : (x * p).toNat % 256 = x.toNat % 256 * p.toNat % 256 := by
  rw [BitVec.toNat_mul, Nat.mod_mod_of_dvd _ (show 256 ∣ 2 ^ w from Nat.pow_dvd_pow 2 hw), Nat.mod_mul_mod]

private theorem diff_chosen {w : Nat} (hw : 8 ≤ w) (p : BitVec w) (ls : List (Byte × Byte)) : ∀ (x y : BitVec w) (e : Int), Diff x y e →
    Diff (foldFnv p x (chosen p x (ls.map Prod.fst))) (foldFnv p y (chosen p y (ls.map Prod.snd))) (trace p.toNat ls (x.toNat % 256) (y.toNat % 256) e) := by
  induction ls with
  | nil => intro x y e h; exact h
  | cons lm ls ih =>
    intro x y e h
    obtain ⟨l, m⟩ := lm
    have hx := xor_low hw x l
    have hy := xor_low hw y m
    have hlx := mul_low hw (x ^^^ (x.setWidth 8 ^^^ l).setWidth w) p
    have hly := mul_low hw (y ^^^ (y.setWidth 8 ^^^ m).setWidth w) p
    have hl := l.isLt
    have hm := m.isLt
    rw [hx, show (x.toNat - x.toNat % 256 + l.toNat) % 256 = l.toNat by omega] at hlx
    rw [hy, show (y.toNat - y.toNat % 256 + m.toNat) % 256 = m.toNat by omega] at hly
    obtain ⟨k, h⟩ := h
    have h' : Diff (x ^^^ (x.setWidth 8 ^^^ l).setWidth w) (y ^^^ (y.setWidth 8 ^^^ m).setWidth w) (e - ((x.toNat % 256 : Nat) : Int) + ((y.toNat % 256 : Nat) : Int) + l.toNat - m.toNat) := by
      refine ⟨k, ?_⟩
      rw [hx, hy]
      generalize (2 ^ w * k : Int) = M at h ⊢
      omega
    have := ih _ _ _ (h'.mul p)
    rw [hlx, hly] at this
    exact this

private theorem longer {w : Nat} (hw : 8 ≤ w) (p : BitVec w) (l m : Byte) (ls : List (Byte × Byte)) (hne : l ≠ m) (K : Int)
    (ht : trace p.toNat ((l, m) :: ls) 0 0 0 = 2 ^ w * K) (x : BitVec w) :
    ∃ u v : List Byte, u.length = ls.length + 1 ∧ v.length = ls.length + 1 ∧ u ≠ v ∧ foldFnv p x u = foldFnv p x v := by
  have h := diff_chosen hw p ((l, m) :: ls) x x 0 ⟨0, by simp⟩
  have e : trace p.toNat ((l, m) :: ls) (x.toNat % 256) (x.toNat % 256) 0 = trace p.toNat ((l, m) :: ls) 0 0 0 := by
    simp only [trace]
    congr 1
    simp
  rw [e, ht] at h
  refine ⟨_, _, ?_, ?_, ?_, Diff.eq h⟩
  · rw [chosen_length]; simp
  · rw [chosen_length]; simp
  · intro he
    simp only [List.map_cons, chosen, List.cons.injEq] at he
    exact hne (xor_right_cancel' he.1)

/-- C165: not four bytes: between any two texts there are two pieces of four bytes with the same FNV-1a of 32 bits. -/
theorem C165_four (pre post : List Byte) : ∃ u v : List Byte, u.length = 4 ∧ v.length = 4 ∧ u ≠ v ∧
    fnv32Buffer (pre ++ u ++ post) (pre ++ u ++ post).length = fnv32Buffer (pre ++ v ++ post) (pre ++ v ++ post).length := by
  obtain ⟨u, v, hu, hv, hne, e⟩ := longer (by decide) fnvPrime32 101 213 [(50, 190), (6, 250), (106, 106)] (by decide) (trace fnvPrime32.toNat [(101, 213), (50, 190), (6, 250), (106, 106)] 0 0 0 / 2 ^ 32)
    (by decide +kernel) (foldFnv fnvPrime32 fnvBasis32 pre)
  refine ⟨u, v, hu, hv, hne, ?_⟩
  rw [fnv32_eq, fnv32_eq, fold_append, fold_append, fold_append, fold_append, e]

/-- C165: not seven bytes, for FNV-1a of 64 bits. -/
theorem C165_seven (pre post : List Byte) : ∃ u v : List Byte, u.length = 7 ∧ v.length = 7 ∧ u ≠ v ∧
    fnv64Buffer (pre ++ u ++ post) (pre ++ u ++ post).length = fnv64Buffer (pre ++ v ++ post) (pre ++ v ++ post).length := by
  obtain ⟨u, v, hu, hv, hne, e⟩ := longer (by decide) fnvPrime64 10 247 [(60, 137), (159, 86), (167, 107), (22, 190), (110, 236), (27, 27)] (by decide)
    (trace fnvPrime64.toNat [(10, 247), (60, 137), (159, 86), (167, 107), (22, 190), (110, 236), (27, 27)] 0 0 0 / 2 ^ 64)
    (by decide +kernel) (foldFnv fnvPrime64 fnvBasis64 pre)
  refine ⟨u, v, hu, hv, hne, ?_⟩
  rw [fnv64_eq, fnv64_eq, fold_append, fold_append, fold_append, fold_append, e]

/-- Texts that differ within three bytes. -/
example : DifferWithin 3 [1, 2, 3, 4, 5] [1, 9, 3, 8, 5] := ⟨[1], [2, 3, 4], [9, 3, 8], [5], rfl, by decide, by decide, rfl, rfl⟩

end Verif.Hash
