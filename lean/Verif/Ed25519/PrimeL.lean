import Verif.Ed25519.Prime

/-!
The order of the base point of Ed25519 is prime: a Pratt certificate as in Prime.lean.
-/

namespace Verif.Ed25519

theorem prime_l0 : Nat.Prime (1224481) := by
  refine pratt _ 13 [2, 2, 2, 2, 2, 3, 5, 2551] (by decide +kernel) (by decide +kernel) (by decide +kernel) ?_ (by decide +kernel) (by decide +kernel)
  intro q hq
  simp only [List.mem_cons, List.not_mem_nil, or_false] at hq
  rcases hq with rfl | rfl | rfl | rfl | rfl | rfl | rfl | rfl
  · norm_num
  · norm_num
  · norm_num
  · norm_num
  · norm_num
  · norm_num
  · norm_num
  · norm_num

theorem prime_l1 : Nat.Prime (531581) := by
  refine pratt _ 2 [2, 2, 5, 7, 3797] (by decide +kernel) (by decide +kernel) (by decide +kernel) ?_ (by decide +kernel) (by decide +kernel)
  intro q hq
  simp only [List.mem_cons, List.not_mem_nil, or_false] at hq
  rcases hq with rfl | rfl | rfl | rfl | rfl
  · norm_num
  · norm_num
  · norm_num
  · norm_num
  · norm_num

theorem prime_l2 : Nat.Prime (1257559732178653) := by
  refine pratt _ 2 [2, 2, 3, 7, 23, 531581, 1224481] (by decide +kernel) (by decide +kernel) (by decide +kernel) ?_ (by decide +kernel) (by decide +kernel)
  intro q hq
  simp only [List.mem_cons, List.not_mem_nil, or_false] at hq
  rcases hq with rfl | rfl | rfl | rfl | rfl | rfl | rfl
  · norm_num
  · norm_num
  · norm_num
  · norm_num
  · norm_num
  · exact prime_l1
  · exact prime_l0

theorem prime_l3 : Nat.Prime (4434155615661930479) := by
  refine pratt _ 17 [2, 41, 43, 1257559732178653] (by decide +kernel) (by decide +kernel) (by decide +kernel) ?_ (by decide +kernel) (by decide +kernel)
  intro q hq
  simp only [List.mem_cons, List.not_mem_nil, or_false] at hq
  rcases hq with rfl | rfl | rfl | rfl
  · norm_num
  · norm_num
  · norm_num
  · exact prime_l2

theorem prime_l4 : Nat.Prime (172054593956031949258510691) := by
  refine pratt _ 2 [2, 5, 1361, 2851, 4434155615661930479] (by decide +kernel) (by decide +kernel) (by decide +kernel) ?_ (by decide +kernel) (by decide +kernel)
  intro q hq
  simp only [List.mem_cons, List.not_mem_nil, or_false] at hq
  rcases hq with rfl | rfl | rfl | rfl | rfl
  · norm_num
  · norm_num
  · norm_num
  · norm_num
  · exact prime_l3

theorem prime_l5 : Nat.Prime (292386187) := by
  refine pratt _ 2 [2, 3, 3, 3, 3, 307, 5879] (by decide +kernel) (by decide +kernel) (by decide +kernel) ?_ (by decide +kernel) (by decide +kernel)
  intro q hq
  simp only [List.mem_cons, List.not_mem_nil, or_false] at hq
  rcases hq with rfl | rfl | rfl | rfl | rfl | rfl | rfl
  · norm_num
  · norm_num
  · norm_num
  · norm_num
  · norm_num
  · norm_num
  · norm_num

theorem prime_l6 : Nat.Prime (213441916511) := by
  refine pratt _ 13 [2, 5, 73, 292386187] (by decide +kernel) (by decide +kernel) (by decide +kernel) ?_ (by decide +kernel) (by decide +kernel)
  intro q hq
  simp only [List.mem_cons, List.not_mem_nil, or_false] at hq
  rcases hq with rfl | rfl | rfl | rfl
  · norm_num
  · norm_num
  · norm_num
  · exact prime_l5

theorem prime_l7 : Nat.Prime (19757330305831588566944191468367130476339) := by
  refine pratt _ 2 [2, 269, 213441916511, 172054593956031949258510691] (by decide +kernel) (by decide +kernel) (by decide +kernel) ?_ (by decide +kernel) (by decide +kernel)
  intro q hq
  simp only [List.mem_cons, List.not_mem_nil, or_false] at hq
  rcases hq with rfl | rfl | rfl | rfl
  · norm_num
  · norm_num
  · exact prime_l6
  · exact prime_l4

theorem prime_l8 : Nat.Prime (276602624281642239937218680557139826668747) := by
  refine pratt _ 2 [2, 7, 19757330305831588566944191468367130476339] (by decide +kernel) (by decide +kernel) (by decide +kernel) ?_ (by decide +kernel) (by decide +kernel)
  intro q hq
  simp only [List.mem_cons, List.not_mem_nil, or_false] at hq
  rcases hq with rfl | rfl | rfl
  · norm_num
  · norm_num
  · exact prime_l7

theorem prime_l9 : Nat.Prime (409477) := by
  refine pratt _ 2 [2, 2, 3, 34123] (by decide +kernel) (by decide +kernel) (by decide +kernel) ?_ (by decide +kernel) (by decide +kernel)
  intro q hq
  simp only [List.mem_cons, List.not_mem_nil, or_false] at hq
  rcases hq with rfl | rfl | rfl | rfl
  · norm_num
  · norm_num
  · norm_num
  · norm_num

theorem prime_l10 : Nat.Prime (14741173) := by
  refine pratt _ 2 [2, 2, 3, 3, 409477] (by decide +kernel) (by decide +kernel) (by decide +kernel) ?_ (by decide +kernel) (by decide +kernel)
  intro q hq
  simp only [List.mem_cons, List.not_mem_nil, or_false] at hq
  rcases hq with rfl | rfl | rfl | rfl | rfl
  · norm_num
  · norm_num
  · norm_num
  · norm_num
  · exact prime_l9

theorem prime_l11 : Nat.Prime (58964693) := by
  refine pratt _ 2 [2, 2, 14741173] (by decide +kernel) (by decide +kernel) (by decide +kernel) ?_ (by decide +kernel) (by decide +kernel)
  intro q hq
  simp only [List.mem_cons, List.not_mem_nil, or_false] at hq
  rcases hq with rfl | rfl | rfl
  · norm_num
  · norm_num
  · exact prime_l10

theorem prime_l12 : Nat.Prime (137849) := by
  refine pratt _ 3 [2, 2, 2, 17231] (by decide +kernel) (by decide +kernel) (by decide +kernel) ?_ (by decide +kernel) (by decide +kernel)
  intro q hq
  simp only [List.mem_cons, List.not_mem_nil, or_false] at hq
  rcases hq with rfl | rfl | rfl | rfl
  · norm_num
  · norm_num
  · norm_num
  · norm_num

theorem prime_l13 : Nat.Prime (132667) := by
  refine pratt _ 5 [2, 3, 22111] (by decide +kernel) (by decide +kernel) (by decide +kernel) ?_ (by decide +kernel) (by decide +kernel)
  intro q hq
  simp only [List.mem_cons, List.not_mem_nil, or_false] at hq
  rcases hq with rfl | rfl | rfl
  · norm_num
  · norm_num
  · norm_num

theorem prime_l14 : Nat.Prime (3044861653679985063343) := by
  refine pratt _ 5 [2, 3, 11, 30703, 82163, 132667, 137849] (by decide +kernel) (by decide +kernel) (by decide +kernel) ?_ (by decide +kernel) (by decide +kernel)
  intro q hq
  simp only [List.mem_cons, List.not_mem_nil, or_false] at hq
  rcases hq with rfl | rfl | rfl | rfl | rfl | rfl | rfl
  · norm_num
  · norm_num
  · norm_num
  · norm_num
  · norm_num
  · exact prime_l13
  · exact prime_l12

theorem prime_l15 : Nat.Prime (198211423230930754013084525763697) := by
  refine pratt _ 5 [2, 2, 2, 2, 3, 23, 58964693, 3044861653679985063343] (by decide +kernel) (by decide +kernel) (by decide +kernel) ?_ (by decide +kernel) (by decide +kernel)
  intro q hq
  simp only [List.mem_cons, List.not_mem_nil, or_false] at hq
  rcases hq with rfl | rfl | rfl | rfl | rfl | rfl | rfl | rfl
  · norm_num
  · norm_num
  · norm_num
  · norm_num
  · norm_num
  · norm_num
  · exact prime_l11
  · exact prime_l14

theorem prime_L : Nat.Prime (2 ^ 252 + 27742317777372353535851937790883648493) := by
  refine pratt _ 2 [2, 2, 3, 11, 198211423230930754013084525763697, 276602624281642239937218680557139826668747] (by decide +kernel) (by decide +kernel) (by decide +kernel) ?_ (by decide +kernel) (by decide +kernel)
  intro q hq
  simp only [List.mem_cons, List.not_mem_nil, or_false] at hq
  rcases hq with rfl | rfl | rfl | rfl | rfl | rfl
  · norm_num
  · norm_num
  · norm_num
  · norm_num
  · exact prime_l15
  · exact prime_l8

end Verif.Ed25519
