import Verif.Ed25519.Prime

/-!
The odd prime in the number of points of the twist of Curve25519: a Pratt certificate as in Ed25519/Prime.lean.
-/

namespace Verif.Nacl
open Verif.Ed25519

theorem prime_t0 : Nat.Prime (117223) := by
  refine pratt _ 3 [2, 3, 7, 2791] (by decide +kernel) (by decide +kernel) (by decide +kernel) ?_ (by decide +kernel) (by decide +kernel)
  intro q hq
  simp only [List.mem_cons, List.not_mem_nil, or_false] at hq
  rcases hq with rfl | rfl | rfl | rfl
  · norm_num
  · norm_num
  · norm_num
  · norm_num

theorem prime_t1 : Nat.Prime (6418733) := by
  refine pratt _ 2 [2, 2, 19, 84457] (by decide +kernel) (by decide +kernel) (by decide +kernel) ?_ (by decide +kernel) (by decide +kernel)
  intro q hq
  simp only [List.mem_cons, List.not_mem_nil, or_false] at hq
  rcases hq with rfl | rfl | rfl | rfl
  · norm_num
  · norm_num
  · norm_num
  · norm_num

theorem prime_t2 : Nat.Prime (1110318119) := by
  refine pratt _ 7 [2, 7, 13, 487, 12527] (by decide +kernel) (by decide +kernel) (by decide +kernel) ?_ (by decide +kernel) (by decide +kernel)
  intro q hq
  simp only [List.mem_cons, List.not_mem_nil, or_false] at hq
  rcases hq with rfl | rfl | rfl | rfl | rfl
  · norm_num
  · norm_num
  · norm_num
  · norm_num
  · norm_num

theorem prime_t3 : Nat.Prime (2220636239) := by
  refine pratt _ 23 [2, 1110318119] (by decide +kernel) (by decide +kernel) (by decide +kernel) ?_ (by decide +kernel) (by decide +kernel)
  intro q hq
  simp only [List.mem_cons, List.not_mem_nil, or_false] at hq
  rcases hq with rfl | rfl
  · norm_num
  · exact prime_t2

theorem prime_t4 : Nat.Prime (743104567) := by
  refine pratt _ 6 [2, 3, 3, 3637, 11351] (by decide +kernel) (by decide +kernel) (by decide +kernel) ?_ (by decide +kernel) (by decide +kernel)
  intro q hq
  simp only [List.mem_cons, List.not_mem_nil, or_false] at hq
  rcases hq with rfl | rfl | rfl | rfl | rfl
  · norm_num
  · norm_num
  · norm_num
  · norm_num
  · norm_num

theorem prime_t5 : Nat.Prime (1013266244677) := by
  refine pratt _ 2 [2, 2, 3, 7, 383, 3911, 8053] (by decide +kernel) (by decide +kernel) (by decide +kernel) ?_ (by decide +kernel) (by decide +kernel)
  intro q hq
  simp only [List.mem_cons, List.not_mem_nil, or_false] at hq
  rcases hq with rfl | rfl | rfl | rfl | rfl | rfl | rfl
  · norm_num
  · norm_num
  · norm_num
  · norm_num
  · norm_num
  · norm_num
  · norm_num

theorem prime_t6 : Nat.Prime (727169) := by
  refine pratt _ 3 [2, 2, 2, 2, 2, 2, 2, 13, 19, 23] (by decide +kernel) (by decide +kernel) (by decide +kernel) ?_ (by decide +kernel) (by decide +kernel)
  intro q hq
  simp only [List.mem_cons, List.not_mem_nil, or_false] at hq
  rcases hq with rfl | rfl | rfl | rfl | rfl | rfl | rfl | rfl | rfl | rfl
  · norm_num
  · norm_num
  · norm_num
  · norm_num
  · norm_num
  · norm_num
  · norm_num
  · norm_num
  · norm_num
  · norm_num

theorem prime_t7 : Nat.Prime (5171003929967) := by
  refine pratt _ 5 [2, 7, 31, 181, 2281, 28859] (by decide +kernel) (by decide +kernel) (by decide +kernel) ?_ (by decide +kernel) (by decide +kernel)
  intro q hq
  simp only [List.mem_cons, List.not_mem_nil, or_false] at hq
  rcases hq with rfl | rfl | rfl | rfl | rfl | rfl
  · norm_num
  · norm_num
  · norm_num
  · norm_num
  · norm_num
  · norm_num

theorem prime_t8 : Nat.Prime (22561162540501040539) := by
  refine pratt _ 3 [2, 3, 727169, 5171003929967] (by decide +kernel) (by decide +kernel) (by decide +kernel) ?_ (by decide +kernel) (by decide +kernel)
  intro q hq
  simp only [List.mem_cons, List.not_mem_nil, or_false] at hq
  rcases hq with rfl | rfl | rfl | rfl
  · norm_num
  · norm_num
  · exact prime_t6
  · exact prime_t7

theorem prime_t9 : Nat.Prime (203852586375664218368381551393371968928013) := by
  refine pratt _ 2 [2, 2, 3, 743104567, 1013266244677, 22561162540501040539] (by decide +kernel) (by decide +kernel) (by decide +kernel) ?_ (by decide +kernel) (by decide +kernel)
  intro q hq
  simp only [List.mem_cons, List.not_mem_nil, or_false] at hq
  rcases hq with rfl | rfl | rfl | rfl | rfl | rfl
  · norm_num
  · norm_num
  · norm_num
  · exact prime_t4
  · exact prime_t5
  · exact prime_t8

theorem prime_t10 : Nat.Prime (104719073621178708975837602950775180438320278101) := by
  refine pratt _ 2 [2, 2, 5, 5, 11, 467, 203852586375664218368381551393371968928013] (by decide +kernel) (by decide +kernel) (by decide +kernel) ?_ (by decide +kernel) (by decide +kernel)
  intro q hq
  simp only [List.mem_cons, List.not_mem_nil, or_false] at hq
  rcases hq with rfl | rfl | rfl | rfl | rfl | rfl | rfl
  · norm_num
  · norm_num
  · norm_num
  · norm_num
  · norm_num
  · norm_num
  · exact prime_t9

theorem prime_t11 : Nat.Prime (27413359092552162435694767700453926735143482401279781) := by
  refine pratt _ 2 [2, 2, 3, 5, 4363, 104719073621178708975837602950775180438320278101] (by decide +kernel) (by decide +kernel) (by decide +kernel) ?_ (by decide +kernel) (by decide +kernel)
  intro q hq
  simp only [List.mem_cons, List.not_mem_nil, or_false] at hq
  rcases hq with rfl | rfl | rfl | rfl | rfl | rfl
  · norm_num
  · norm_num
  · norm_num
  · norm_num
  · norm_num
  · exact prime_t10

theorem prime_T : Nat.Prime (2 ^ 253 - 55484635554744707071703875581767296995) := by
  refine pratt _ 2 [2, 2, 79, 117223, 6418733, 2220636239, 27413359092552162435694767700453926735143482401279781] (by decide +kernel) (by decide +kernel) (by decide +kernel) ?_ (by decide +kernel) (by decide +kernel)
  intro q hq
  simp only [List.mem_cons, List.not_mem_nil, or_false] at hq
  rcases hq with rfl | rfl | rfl | rfl | rfl | rfl | rfl
  · norm_num
  · norm_num
  · norm_num
  · exact prime_t0
  · exact prime_t1
  · exact prime_t3
  · exact prime_t11

end Verif.Nacl
