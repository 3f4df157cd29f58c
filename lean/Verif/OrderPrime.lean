import Verif.Prime
/-!
# OrderPrime: the order of the base point of edwards25519 is prime

Not part of the model: a Pratt certificate for `2^252 + 27742317777372353535851937790883648493` (RFC 8032, section 5.1).
-/

namespace Sigtool.Prime

theorem p11 : Nat.Prime 11 := by norm_num

theorem p23 : Nat.Prime 23 := by norm_num

theorem p409477 : Nat.Prime 409477 := by norm_num

theorem p14741173 :
    Nat.Prime 14741173 := by
  refine prime_of_cert _ 2 24 [2, 3, 409477] [2, 2, 1] ?_ (by norm_num) (by decide +kernel)
  simp only [List.mem_cons, List.not_mem_nil, or_false]
  rintro q (rfl | rfl | rfl)
  · exact p2
  · exact p3
  · exact p409477

theorem p58964693 :
    Nat.Prime 58964693 := by
  refine prime_of_cert _ 2 26 [2, 14741173] [2, 1] ?_ (by norm_num) (by decide +kernel)
  simp only [List.mem_cons, List.not_mem_nil, or_false]
  rintro q (rfl | rfl)
  · exact p2
  · exact p14741173

theorem p30703 : Nat.Prime 30703 := by norm_num

theorem p82163 : Nat.Prime 82163 := by norm_num

theorem p132667 : Nat.Prime 132667 := by norm_num

theorem p137849 : Nat.Prime 137849 := by norm_num

theorem p3044861653679985063343 :
    Nat.Prime 3044861653679985063343 := by
  refine prime_of_cert _ 5 72 [2, 3, 11, 30703, 82163, 132667, 137849] [1, 1, 1, 1, 1, 1, 1] ?_ (by norm_num) (by decide +kernel)
  simp only [List.mem_cons, List.not_mem_nil, or_false]
  rintro q (rfl | rfl | rfl | rfl | rfl | rfl | rfl)
  · exact p2
  · exact p3
  · exact p11
  · exact p30703
  · exact p82163
  · exact p132667
  · exact p137849

theorem p198211423230930754013084525763697 :
    Nat.Prime 198211423230930754013084525763697 := by
  refine prime_of_cert _ 5 108 [2, 3, 23, 58964693, 3044861653679985063343] [4, 1, 1, 1, 1] ?_ (by norm_num) (by decide +kernel)
  simp only [List.mem_cons, List.not_mem_nil, or_false]
  rintro q (rfl | rfl | rfl | rfl | rfl)
  · exact p2
  · exact p3
  · exact p23
  · exact p58964693
  · exact p3044861653679985063343

theorem p269 : Nat.Prime 269 := by norm_num

theorem p73 : Nat.Prime 73 := by norm_num

theorem p307 : Nat.Prime 307 := by norm_num

theorem p5879 : Nat.Prime 5879 := by norm_num

theorem p292386187 :
    Nat.Prime 292386187 := by
  refine prime_of_cert _ 2 29 [2, 3, 307, 5879] [1, 4, 1, 1] ?_ (by norm_num) (by decide +kernel)
  simp only [List.mem_cons, List.not_mem_nil, or_false]
  rintro q (rfl | rfl | rfl | rfl)
  · exact p2
  · exact p3
  · exact p307
  · exact p5879

theorem p213441916511 :
    Nat.Prime 213441916511 := by
  refine prime_of_cert _ 13 38 [2, 5, 73, 292386187] [1, 1, 1, 1] ?_ (by norm_num) (by decide +kernel)
  simp only [List.mem_cons, List.not_mem_nil, or_false]
  rintro q (rfl | rfl | rfl | rfl)
  · exact p2
  · exact p5
  · exact p73
  · exact p292386187

theorem p1361 : Nat.Prime 1361 := by norm_num

theorem p2851 : Nat.Prime 2851 := by norm_num

theorem p41 : Nat.Prime 41 := by norm_num

theorem p43 : Nat.Prime 43 := by norm_num

theorem p531581 : Nat.Prime 531581 := by norm_num

theorem p1224481 : Nat.Prime 1224481 := by norm_num

theorem p1257559732178653 :
    Nat.Prime 1257559732178653 := by
  refine prime_of_cert _ 2 51 [2, 3, 7, 23, 531581, 1224481] [2, 1, 1, 1, 1, 1] ?_ (by norm_num) (by decide +kernel)
  simp only [List.mem_cons, List.not_mem_nil, or_false]
  rintro q (rfl | rfl | rfl | rfl | rfl | rfl)
  · exact p2
  · exact p3
  · exact p7
  · exact p23
  · exact p531581
  · exact p1224481

theorem p4434155615661930479 :
    Nat.Prime 4434155615661930479 := by
  refine prime_of_cert _ 17 62 [2, 41, 43, 1257559732178653] [1, 1, 1, 1] ?_ (by norm_num) (by decide +kernel)
  simp only [List.mem_cons, List.not_mem_nil, or_false]
  rintro q (rfl | rfl | rfl | rfl)
  · exact p2
  · exact p41
  · exact p43
  · exact p1257559732178653

theorem p172054593956031949258510691 :
    Nat.Prime 172054593956031949258510691 := by
  refine prime_of_cert _ 2 88 [2, 5, 1361, 2851, 4434155615661930479] [1, 1, 1, 1, 1] ?_ (by norm_num) (by decide +kernel)
  simp only [List.mem_cons, List.not_mem_nil, or_false]
  rintro q (rfl | rfl | rfl | rfl | rfl)
  · exact p2
  · exact p5
  · exact p1361
  · exact p2851
  · exact p4434155615661930479

theorem p19757330305831588566944191468367130476339 :
    Nat.Prime 19757330305831588566944191468367130476339 := by
  refine prime_of_cert _ 2 134 [2, 269, 213441916511, 172054593956031949258510691] [1, 1, 1, 1] ?_ (by norm_num) (by decide +kernel)
  simp only [List.mem_cons, List.not_mem_nil, or_false]
  rintro q (rfl | rfl | rfl | rfl)
  · exact p2
  · exact p269
  · exact p213441916511
  · exact p172054593956031949258510691

theorem p276602624281642239937218680557139826668747 :
    Nat.Prime 276602624281642239937218680557139826668747 := by
  refine prime_of_cert _ 2 138 [2, 7, 19757330305831588566944191468367130476339] [1, 1, 1] ?_ (by norm_num) (by decide +kernel)
  simp only [List.mem_cons, List.not_mem_nil, or_false]
  rintro q (rfl | rfl | rfl)
  · exact p2
  · exact p7
  · exact p19757330305831588566944191468367130476339

theorem p7237005577332262213973186563042994240857116359379907606001950938285454250989 :
    Nat.Prime 7237005577332262213973186563042994240857116359379907606001950938285454250989 := by
  refine prime_of_cert _ 2 253 [2, 3, 11, 198211423230930754013084525763697, 276602624281642239937218680557139826668747] [2, 1, 1, 1, 1] ?_ (by norm_num) (by decide +kernel)
  simp only [List.mem_cons, List.not_mem_nil, or_false]
  rintro q (rfl | rfl | rfl | rfl | rfl)
  · exact p2
  · exact p3
  · exact p11
  · exact p198211423230930754013084525763697
  · exact p276602624281642239937218680557139826668747

/-- The order of the base point. -/
def order : Nat := 2^252 + 27742317777372353535851937790883648493

theorem order_prime : Nat.Prime order := by
  have : order = 7237005577332262213973186563042994240857116359379907606001950938285454250989 := by norm_num [order]
  rw [this]; exact p7237005577332262213973186563042994240857116359379907606001950938285454250989

end Sigtool.Prime
