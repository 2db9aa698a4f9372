import Verif.Lemmas.PrimeEll
/-!
# The two primes of the curve of package bls

The order of the field and the order of the groups of bn256, for the parameter `1868033³`. Lucas certificates, evaluated in the
kernel.
-/

namespace Dusk.PrimeBn

theorem prime_1163 : Nat.Prime 1163 :=
  PrimeEll.prime_of_check 11 1163 5 [2, 7, 83] (by
    simp only [List.mem_cons, List.not_mem_nil, or_false, forall_eq_or_imp, forall_eq]
    exact ⟨(by norm_num), (by norm_num), (by norm_num)⟩) (by decide +kernel)

theorem prime_1187 : Nat.Prime 1187 :=
  PrimeEll.prime_of_check 11 1187 2 [2, 593] (by
    simp only [List.mem_cons, List.not_mem_nil, or_false, forall_eq_or_imp, forall_eq]
    exact ⟨(by norm_num), (by norm_num)⟩) (by decide +kernel)

theorem prime_1979 : Nat.Prime 1979 :=
  PrimeEll.prime_of_check 11 1979 2 [2, 23, 43] (by
    simp only [List.mem_cons, List.not_mem_nil, or_false, forall_eq_or_imp, forall_eq]
    exact ⟨(by norm_num), (by norm_num), (by norm_num)⟩) (by decide +kernel)

theorem prime_3593 : Nat.Prime 3593 :=
  PrimeEll.prime_of_check 12 3593 3 [2, 2, 2, 449] (by
    simp only [List.mem_cons, List.not_mem_nil, or_false, forall_eq_or_imp, forall_eq]
    exact ⟨(by norm_num), (by norm_num), (by norm_num), (by norm_num)⟩) (by decide +kernel)

theorem prime_4073 : Nat.Prime 4073 :=
  PrimeEll.prime_of_check 12 4073 3 [2, 2, 2, 509] (by
    simp only [List.mem_cons, List.not_mem_nil, or_false, forall_eq_or_imp, forall_eq]
    exact ⟨(by norm_num), (by norm_num), (by norm_num), (by norm_num)⟩) (by decide +kernel)

theorem prime_4159 : Nat.Prime 4159 :=
  PrimeEll.prime_of_check 13 4159 3 [2, 3, 3, 3, 7, 11] (by
    simp only [List.mem_cons, List.not_mem_nil, or_false, forall_eq_or_imp, forall_eq]
    exact ⟨(by norm_num), (by norm_num), (by norm_num), (by norm_num), (by norm_num), (by norm_num)⟩) (by decide +kernel)

theorem prime_5743 : Nat.Prime 5743 :=
  PrimeEll.prime_of_check 13 5743 10 [2, 3, 3, 11, 29] (by
    simp only [List.mem_cons, List.not_mem_nil, or_false, forall_eq_or_imp, forall_eq]
    exact ⟨(by norm_num), (by norm_num), (by norm_num), (by norm_num), (by norm_num)⟩) (by decide +kernel)

theorem prime_6473 : Nat.Prime 6473 :=
  PrimeEll.prime_of_check 13 6473 3 [2, 2, 2, 809] (by
    simp only [List.mem_cons, List.not_mem_nil, or_false, forall_eq_or_imp, forall_eq]
    exact ⟨(by norm_num), (by norm_num), (by norm_num), (by norm_num)⟩) (by decide +kernel)

theorem prime_7297 : Nat.Prime 7297 :=
  PrimeEll.prime_of_check 13 7297 5 [2, 2, 2, 2, 2, 2, 2, 3, 19] (by
    simp only [List.mem_cons, List.not_mem_nil, or_false, forall_eq_or_imp, forall_eq]
    exact ⟨(by norm_num), (by norm_num), (by norm_num), (by norm_num), (by norm_num), (by norm_num), (by norm_num), (by norm_num), (by norm_num)⟩) (by decide +kernel)

theorem prime_7907 : Nat.Prime 7907 :=
  PrimeEll.prime_of_check 13 7907 2 [2, 59, 67] (by
    simp only [List.mem_cons, List.not_mem_nil, or_false, forall_eq_or_imp, forall_eq]
    exact ⟨(by norm_num), (by norm_num), (by norm_num)⟩) (by decide +kernel)

theorem prime_8147 : Nat.Prime 8147 :=
  PrimeEll.prime_of_check 13 8147 2 [2, 4073] (by
    simp only [List.mem_cons, List.not_mem_nil, or_false, forall_eq_or_imp, forall_eq]
    exact ⟨(by norm_num), prime_4073⟩) (by decide +kernel)

theorem prime_10259 : Nat.Prime 10259 :=
  PrimeEll.prime_of_check 14 10259 2 [2, 23, 223] (by
    simp only [List.mem_cons, List.not_mem_nil, or_false, forall_eq_or_imp, forall_eq]
    exact ⟨(by norm_num), (by norm_num), (by norm_num)⟩) (by decide +kernel)

theorem prime_39581 : Nat.Prime 39581 :=
  PrimeEll.prime_of_check 16 39581 2 [2, 2, 5, 1979] (by
    simp only [List.mem_cons, List.not_mem_nil, or_false, forall_eq_or_imp, forall_eq]
    exact ⟨(by norm_num), (by norm_num), (by norm_num), prime_1979⟩) (by decide +kernel)

theorem prime_62549 : Nat.Prime 62549 :=
  PrimeEll.prime_of_check 16 62549 2 [2, 2, 19, 823] (by
    simp only [List.mem_cons, List.not_mem_nil, or_false, forall_eq_or_imp, forall_eq]
    exact ⟨(by norm_num), (by norm_num), (by norm_num), (by norm_num)⟩) (by decide +kernel)

theorem prime_151573 : Nat.Prime 151573 :=
  PrimeEll.prime_of_check 18 151573 5 [2, 2, 3, 17, 743] (by
    simp only [List.mem_cons, List.not_mem_nil, or_false, forall_eq_or_imp, forall_eq]
    exact ⟨(by norm_num), (by norm_num), (by norm_num), (by norm_num), (by norm_num)⟩) (by decide +kernel)

theorem prime_237487 : Nat.Prime 237487 :=
  PrimeEll.prime_of_check 18 237487 5 [2, 3, 39581] (by
    simp only [List.mem_cons, List.not_mem_nil, or_false, forall_eq_or_imp, forall_eq]
    exact ⟨(by norm_num), (by norm_num), prime_39581⟩) (by decide +kernel)

theorem prime_421453 : Nat.Prime 421453 :=
  PrimeEll.prime_of_check 19 421453 6 [2, 2, 3, 3, 23, 509] (by
    simp only [List.mem_cons, List.not_mem_nil, or_false, forall_eq_or_imp, forall_eq]
    exact ⟨(by norm_num), (by norm_num), (by norm_num), (by norm_num), (by norm_num), (by norm_num)⟩) (by decide +kernel)

theorem prime_500393 : Nat.Prime 500393 :=
  PrimeEll.prime_of_check 19 500393 3 [2, 2, 2, 62549] (by
    simp only [List.mem_cons, List.not_mem_nil, or_false, forall_eq_or_imp, forall_eq]
    exact ⟨(by norm_num), (by norm_num), (by norm_num), prime_62549⟩) (by decide +kernel)

theorem prime_1802797 : Nat.Prime 1802797 :=
  PrimeEll.prime_of_check 21 1802797 2 [2, 2, 3, 19, 7907] (by
    simp only [List.mem_cons, List.not_mem_nil, or_false, forall_eq_or_imp, forall_eq]
    exact ⟨(by norm_num), (by norm_num), (by norm_num), (by norm_num), prime_7907⟩) (by decide +kernel)

theorem prime_1868033 : Nat.Prime 1868033 :=
  PrimeEll.prime_of_check 21 1868033 3 [2, 2, 2, 2, 2, 2, 2, 2, 7297] (by
    simp only [List.mem_cons, List.not_mem_nil, or_false, forall_eq_or_imp, forall_eq]
    exact ⟨(by norm_num), (by norm_num), (by norm_num), (by norm_num), (by norm_num), (by norm_num), (by norm_num), (by norm_num), prime_7297⟩) (by decide +kernel)

theorem prime_5745221 : Nat.Prime 5745221 :=
  PrimeEll.prime_of_check 23 5745221 3 [2, 2, 5, 13, 19, 1163] (by
    simp only [List.mem_cons, List.not_mem_nil, or_false, forall_eq_or_imp, forall_eq]
    exact ⟨(by norm_num), (by norm_num), (by norm_num), (by norm_num), (by norm_num), prime_1163⟩) (by decide +kernel)

theorem prime_6743249 : Nat.Prime 6743249 :=
  PrimeEll.prime_of_check 23 6743249 3 [2, 2, 2, 2, 421453] (by
    simp only [List.mem_cons, List.not_mem_nil, or_false, forall_eq_or_imp, forall_eq]
    exact ⟨(by norm_num), (by norm_num), (by norm_num), (by norm_num), prime_421453⟩) (by decide +kernel)

theorem prime_8074559 : Nat.Prime 8074559 :=
  PrimeEll.prime_of_check 23 8074559 11 [2, 17, 237487] (by
    simp only [List.mem_cons, List.not_mem_nil, or_false, forall_eq_or_imp, forall_eq]
    exact ⟨(by norm_num), (by norm_num), prime_237487⟩) (by decide +kernel)

theorem prime_280941149 : Nat.Prime 280941149 :=
  PrimeEll.prime_of_check 29 280941149 2 [2, 2, 37, 233, 8147] (by
    simp only [List.mem_cons, List.not_mem_nil, or_false, forall_eq_or_imp, forall_eq]
    exact ⟨(by norm_num), (by norm_num), (by norm_num), (by norm_num), prime_8147⟩) (by decide +kernel)

theorem prime_320897867 : Nat.Prime 320897867 :=
  PrimeEll.prime_of_check 29 320897867 2 [2, 89, 1802797] (by
    simp only [List.mem_cons, List.not_mem_nil, or_false, forall_eq_or_imp, forall_eq]
    exact ⟨(by norm_num), (by norm_num), prime_1802797⟩) (by decide +kernel)

theorem prime_25671829361 : Nat.Prime 25671829361 :=
  PrimeEll.prime_of_check 35 25671829361 7 [2, 2, 2, 2, 5, 320897867] (by
    simp only [List.mem_cons, List.not_mem_nil, or_false, forall_eq_or_imp, forall_eq]
    exact ⟨(by norm_num), (by norm_num), (by norm_num), (by norm_num), (by norm_num), prime_320897867⟩) (by decide +kernel)

theorem prime_71260195429 : Nat.Prime 71260195429 :=
  PrimeEll.prime_of_check 37 71260195429 6 [2, 2, 3, 3, 313, 977, 6473] (by
    simp only [List.mem_cons, List.not_mem_nil, or_false, forall_eq_or_imp, forall_eq]
    exact ⟨(by norm_num), (by norm_num), (by norm_num), (by norm_num), (by norm_num), (by norm_num), prime_6473⟩) (by decide +kernel)

theorem prime_4365978647773 : Nat.Prime 4365978647773 :=
  PrimeEll.prime_of_check 42 4365978647773 2 [2, 2, 3, 7, 41, 157, 8074559] (by
    simp only [List.mem_cons, List.not_mem_nil, or_false, forall_eq_or_imp, forall_eq]
    exact ⟨(by norm_num), (by norm_num), (by norm_num), (by norm_num), (by norm_num), (by norm_num), prime_8074559⟩) (by decide +kernel)

theorem prime_13954314497177 : Nat.Prime 13954314497177 :=
  PrimeEll.prime_of_check 44 13954314497177 3 [2, 2, 2, 73, 4159, 5745221] (by
    simp only [List.mem_cons, List.not_mem_nil, or_false, forall_eq_or_imp, forall_eq]
    exact ⟨(by norm_num), (by norm_num), (by norm_num), (by norm_num), prime_4159, prime_5745221⟩) (by decide +kernel)

theorem prime_81767558454161 : Nat.Prime 81767558454161 :=
  PrimeEll.prime_of_check 47 81767558454161 3 [2, 2, 2, 2, 5, 151573, 6743249] (by
    simp only [List.mem_cons, List.not_mem_nil, or_false, forall_eq_or_imp, forall_eq]
    exact ⟨(by norm_num), (by norm_num), (by norm_num), (by norm_num), (by norm_num), prime_151573, prime_6743249⟩) (by decide +kernel)

theorem prime_130979359433191 : Nat.Prime 130979359433191 :=
  PrimeEll.prime_of_check 47 130979359433191 6 [2, 3, 5, 4365978647773] (by
    simp only [List.mem_cons, List.not_mem_nil, or_false, forall_eq_or_imp, forall_eq]
    exact ⟨(by norm_num), (by norm_num), (by norm_num), prime_4365978647773⟩) (by decide +kernel)

theorem prime_572629249706155373 : Nat.Prime 572629249706155373 :=
  PrimeEll.prime_of_check 59 572629249706155373 2 [2, 2, 10259, 13954314497177] (by
    simp only [List.mem_cons, List.not_mem_nil, or_false, forall_eq_or_imp, forall_eq]
    exact ⟨(by norm_num), (by norm_num), prime_10259, prime_13954314497177⟩) (by decide +kernel)

theorem prime_1145258499412310747 : Nat.Prime 1145258499412310747 :=
  PrimeEll.prime_of_check 60 1145258499412310747 2 [2, 572629249706155373] (by
    simp only [List.mem_cons, List.not_mem_nil, or_false, forall_eq_or_imp, forall_eq]
    exact ⟨(by norm_num), prime_572629249706155373⟩) (by decide +kernel)

theorem prime_3658759154569600381739 : Nat.Prime 3658759154569600381739 :=
  PrimeEll.prime_of_check 72 3658759154569600381739 2 [2, 25671829361, 71260195429] (by
    simp only [List.mem_cons, List.not_mem_nil, or_false, forall_eq_or_imp, forall_eq]
    exact ⟨(by norm_num), prime_25671829361, prime_71260195429⟩) (by decide +kernel)

theorem prime_5332323573263718838033 : Nat.Prime 5332323573263718838033 :=
  PrimeEll.prime_of_check 73 5332323573263718838033 7 [2, 2, 2, 2, 3, 97, 1145258499412310747] (by
    simp only [List.mem_cons, List.not_mem_nil, or_false, forall_eq_or_imp, forall_eq]
    exact ⟨(by norm_num), (by norm_num), (by norm_num), (by norm_num), (by norm_num), (by norm_num), prime_1145258499412310747⟩) (by decide +kernel)

theorem prime_263430659129011227485209 : Nat.Prime 263430659129011227485209 :=
  PrimeEll.prime_of_check 78 263430659129011227485209 11 [2, 2, 2, 3, 3, 3658759154569600381739] (by
    simp only [List.mem_cons, List.not_mem_nil, or_false, forall_eq_or_imp, forall_eq]
    exact ⟨(by norm_num), (by norm_num), (by norm_num), (by norm_num), (by norm_num), prime_3658759154569600381739⟩) (by decide +kernel)

theorem prime_31084817777223324843254663 : Nat.Prime 31084817777223324843254663 :=
  PrimeEll.prime_of_check 85 31084817777223324843254663 5 [2, 59, 263430659129011227485209] (by
    simp only [List.mem_cons, List.not_mem_nil, or_false, forall_eq_or_imp, forall_eq]
    exact ⟨(by norm_num), (by norm_num), prime_263430659129011227485209⟩) (by decide +kernel)

theorem prime_1374947842730272154058024133 : Nat.Prime 1374947842730272154058024133 :=
  PrimeEll.prime_of_check 91 1374947842730272154058024133 2 [2, 2, 3, 79, 1187, 3593, 4159, 81767558454161] (by
    simp only [List.mem_cons, List.not_mem_nil, or_false, forall_eq_or_imp, forall_eq]
    exact ⟨(by norm_num), (by norm_num), (by norm_num), (by norm_num), prime_1187, prime_3593, prime_4159, prime_81767558454161⟩) (by decide +kernel)

theorem prime_491513138693455212421542731357 : Nat.Prime 491513138693455212421542731357 :=
  PrimeEll.prime_of_check 99 491513138693455212421542731357 2 [2, 2, 59, 67, 31084817777223324843254663] (by
    simp only [List.mem_cons, List.not_mem_nil, or_false, forall_eq_or_imp, forall_eq]
    exact ⟨(by norm_num), (by norm_num), (by norm_num), (by norm_num), prime_31084817777223324843254663⟩) (by decide +kernel)

theorem prime_r : Nat.Prime 65000549695646603732796438742359905742570406053903786389881062969044166799969 :=
  PrimeEll.prime_of_check 256 65000549695646603732796438742359905742570406053903786389881062969044166799969 7 [2, 2, 2, 2, 2, 3, 5743, 1868033, 1868033, 1868033, 280941149, 130979359433191, 491513138693455212421542731357] (by
    simp only [List.mem_cons, List.not_mem_nil, or_false, forall_eq_or_imp, forall_eq]
    exact ⟨(by norm_num), (by norm_num), (by norm_num), (by norm_num), (by norm_num), (by norm_num), prime_5743, prime_1868033, prime_1868033, prime_1868033, prime_280941149, prime_130979359433191, prime_491513138693455212421542731357⟩) (by decide +kernel)

theorem prime_p : Nat.Prime 65000549695646603732796438742359905742825358107623003571877145026864184071783 :=
  PrimeEll.prime_of_check 256 65000549695646603732796438742359905742825358107623003571877145026864184071783 3 [2, 3, 3, 151, 500393, 1868033, 1868033, 1868033, 5332323573263718838033, 1374947842730272154058024133] (by
    simp only [List.mem_cons, List.not_mem_nil, or_false, forall_eq_or_imp, forall_eq]
    exact ⟨(by norm_num), (by norm_num), (by norm_num), (by norm_num), prime_500393, prime_1868033, prime_1868033, prime_1868033, prime_5332323573263718838033, prime_1374947842730272154058024133⟩) (by decide +kernel)

end Dusk.PrimeBn
