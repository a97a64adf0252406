import Verif.Keccak.Model
import Verif.Nacl.Model
import Verif.Hybrid.Model
import Verif.Real.Model
import Verif.Hybrid.Toy

/-!
Known answers.  These are tests of the model, not proofs of properties, and no property rests on them: the kernel runs the functions of the model on the inputs that tests/shake_prng_test.c and
tests/test_hybrid.c use and on published examples (FIPS 202 and FIPS 180-4 example values for "abc", the HSalsa20 and Poly1305 examples of the NaCl papers and RFC 8439, RFC 8032 7.1, RFC 7748 5.2), and compares the
results with the bytes printed there.
-/

namespace Verif.Vectors
open Verif

set_option maxRecDepth 100000

/-- Whether a computation of the model ends with these bytes (no line of its own). -/
def gives (x : C Bytes) (b : Bytes) : Bool := match x with | .ok d => d == b | .error _ => false

/-- The letters abc (no line of its own). -/
def abc : Bytes := [0x61, 0x62, 0x63]

/-- sha3_256 of abc, the example value of FIPS 202. -/
example : gives (Keccak.sha3_256 (List.replicate 32 0) abc 3) [58, 152, 93, 167, 79, 226, 37, 178, 4, 92, 23, 45, 107, 211, 144, 189, 133, 95, 8, 110, 62, 157, 82, 91, 70, 191, 226, 69, 17, 67, 21, 50] = true := by decide +kernel

/-- sha3_384 of abc, the example value of FIPS 202. -/
example : gives (Keccak.sha3_384 (List.replicate 48 0) abc 3) [236, 1, 73, 130, 136, 81, 111, 201, 38, 69, 159, 88, 226, 198, 173, 141, 249, 180, 115, 203, 15, 192, 140, 37, 150, 218, 124, 240, 228, 155, 228, 178,
  152, 216, 140, 234, 146, 122, 199, 245, 57, 241, 237, 242, 40, 55, 109, 37] = true := by decide +kernel

/-- sha3_512 of abc, the example value of FIPS 202. -/
example : gives (Keccak.sha3_512 (List.replicate 64 0) abc 3) [183, 81, 133, 11, 26, 87, 22, 138, 86, 147, 205, 146, 75, 107, 9, 110, 8, 246, 33, 130, 116, 68, 247, 13, 136, 79, 93, 2, 64, 210, 113, 46,
  16, 225, 22, 233, 25, 42, 243, 201, 26, 126, 197, 118, 71, 227, 147, 64, 87, 52, 11, 76, 244, 8, 213, 165, 101, 146, 248, 39, 78, 236, 83, 240] = true := by decide +kernel

/-- shake128 of the empty string, 32 bytes, the example value of FIPS 202. -/
example : gives (Keccak.shake128 (List.replicate 32 0) 32 [] 0) [127, 156, 43, 164, 232, 143, 130, 125, 97, 96, 69, 80, 118, 5, 133, 62, 215, 59, 128, 147, 246, 239, 188, 136, 235, 26, 110, 172, 250, 102, 239, 38] = true := by decide +kernel

/-- shake128 of the bytes 0 to 199, 300 bytes: two blocks in, two or three blocks out (value from an independent implementation). -/
example : gives (Keccak.shake128 (List.replicate 300 0) 300 ((List.range 200).map (BitVec.ofNat 8)) 200) [12, 66, 52, 202, 30, 49, 128, 26, 230, 6, 248, 184, 216, 224, 102, 92, 102, 244, 42, 33, 214, 1, 194, 104, 24, 88, 169, 44, 121, 173, 93, 105,
  225, 67, 195, 177, 57, 61, 216, 148, 231, 171, 213, 98, 27, 13, 135, 127, 53, 115, 163, 66, 69, 230, 185, 17, 246, 113, 8, 22, 100, 165, 250, 83,
  247, 120, 136, 108, 181, 107, 219, 166, 11, 46, 141, 33, 189, 91, 104, 178, 240, 63, 125, 180, 95, 171, 139, 236, 5, 213, 134, 146, 39, 53, 150, 115,
  147, 246, 201, 153, 145, 21, 10, 203, 29, 203, 254, 18, 229, 71, 147, 151, 87, 66, 64, 139, 52, 127, 238, 222, 171, 254, 183, 127, 155, 188, 112, 243,
  177, 64, 36, 48, 159, 83, 12, 200, 145, 158, 214, 158, 88, 185, 184, 236, 224, 207, 64, 219, 27, 122, 51, 209, 50, 152, 133, 233, 202, 64, 4, 177,
  251, 164, 186, 211, 73, 179, 249, 141, 99, 91, 151, 117, 252, 156, 177, 2, 124, 30, 67, 23, 86, 48, 46, 16, 150, 20, 255, 38, 157, 132, 21, 244,
  59, 80, 79, 189, 255, 152, 96, 95, 155, 248, 165, 172, 1, 32, 246, 226, 64, 60, 195, 143, 192, 124, 109, 254, 37, 117, 245, 47, 32, 140, 223, 3,
  11, 159, 189, 194, 14, 207, 108, 191, 247, 255, 142, 34, 116, 76, 112, 178, 94, 63, 165, 94, 202, 24, 214, 127, 55, 103, 240, 149, 240, 56, 86, 38,
  69, 136, 207, 31, 208, 159, 41, 218, 117, 156, 46, 132, 155, 31, 52, 95, 238, 189, 224, 242, 113, 164, 24, 193, 46, 18, 111, 190, 8, 96, 149, 185,
  67, 62, 6, 168, 79, 96, 154, 12, 145, 121, 60, 199] = true := by decide +kernel

/-- shake256 of the empty string, 32 bytes, the example value of FIPS 202. -/
example : gives (Keccak.shake256 (List.replicate 32 0) 32 [] 0) [70, 185, 221, 43, 11, 168, 141, 19, 35, 59, 63, 235, 116, 62, 235, 36, 63, 205, 82, 234, 98, 184, 27, 130, 181, 12, 39, 100, 110, 213, 118, 47] = true := by decide +kernel

/-- shake256 of the bytes 0 to 199, 300 bytes: two blocks in, two or three blocks out (value from an independent implementation). -/
example : gives (Keccak.shake256 (List.replicate 300 0) 300 ((List.range 200).map (BitVec.ofNat 8)) 200) [78, 225, 202, 3, 39, 43, 5, 211, 191, 177, 225, 199, 154, 150, 127, 130, 59, 159, 197, 228, 187, 57, 135, 177, 186, 158, 156, 181, 175, 176, 122, 94,
  227, 160, 127, 189, 69, 122, 148, 54, 73, 100, 168, 65, 231, 244, 102, 229, 160, 34, 226, 26, 183, 246, 115, 193, 139, 169, 140, 219, 29, 90, 236, 250,
  230, 34, 104, 176, 104, 241, 228, 191, 158, 233, 133, 59, 204, 224, 141, 205, 73, 28, 98, 154, 162, 24, 182, 13, 61, 69, 62, 131, 165, 84, 235, 23,
  108, 254, 249, 114, 158, 153, 255, 58, 129, 39, 196, 158, 60, 60, 241, 154, 210, 96, 24, 237, 121, 111, 237, 206, 152, 197, 248, 103, 236, 43, 172, 189,
  184, 1, 44, 197, 43, 118, 230, 210, 74, 128, 250, 54, 146, 208, 42, 3, 99, 75, 52, 178, 251, 51, 98, 50, 228, 192, 39, 220, 160, 204, 75, 208,
  58, 1, 241, 206, 200, 195, 90, 208, 229, 22, 135, 250, 212, 225, 142, 188, 35, 167, 88, 81, 212, 102, 151, 157, 89, 219, 115, 145, 182, 23, 2, 167,
  252, 133, 161, 22, 43, 219, 170, 234, 182, 153, 73, 145, 98, 245, 81, 218, 139, 12, 131, 159, 136, 255, 150, 184, 221, 121, 1, 86, 6, 82, 106, 183,
  143, 209, 193, 1, 102, 13, 232, 86, 83, 52, 15, 61, 29, 172, 42, 34, 188, 241, 162, 190, 248, 141, 116, 45, 233, 0, 108, 45, 91, 109, 138, 205,
  88, 107, 107, 238, 118, 248, 92, 204, 191, 148, 227, 135, 197, 60, 35, 231, 22, 198, 112, 196, 219, 35, 198, 121, 1, 53, 138, 230, 79, 63, 12, 206,
  223, 160, 91, 41, 232, 78, 26, 17, 166, 53, 191, 231] = true := by decide +kernel

/-- SHA-512 of abc, the example value of FIPS 180-4. -/
example : gives (Ed25519.cryptoHash abc 3) [221, 175, 53, 161, 147, 97, 122, 186, 204, 65, 115, 73, 174, 32, 65, 49, 18, 230, 250, 78, 137, 169, 126, 162, 10, 158, 238, 230, 75, 85, 211, 154,
  33, 146, 153, 42, 39, 79, 193, 168, 54, 186, 60, 35, 163, 254, 235, 189, 69, 77, 68, 35, 100, 60, 232, 14, 42, 154, 201, 79, 165, 76, 164, 159] = true := by decide +kernel

/-- SHA-512 of the bytes 0 to 129, which take two blocks (value from an independent implementation). -/
example : gives (Ed25519.cryptoHash ((List.range 130).map (BitVec.ofNat 8)) 130) [144, 39, 43, 137, 33, 44, 129, 185, 112, 8, 151, 246, 17, 241, 58, 193, 210, 145, 195, 58, 67, 112, 0, 193, 66, 51, 54, 180, 217, 98, 221, 57,
  206, 35, 65, 49, 96, 240, 35, 150, 62, 18, 244, 204, 249, 13, 39, 98, 179, 27, 252, 104, 24, 239, 134, 94, 138, 124, 191, 145, 138, 148, 193, 219] = true := by decide +kernel

/-- The seed of the deterministic test (tests/shake_prng_test.c:36). -/
def prngSeed : Bytes := [128, 245, 157, 176, 4, 176, 176, 211, 170, 189, 114, 189, 47, 149, 238, 116, 229, 104, 165, 220, 127, 79, 27, 161, 21, 100, 210, 42, 55, 109, 236, 97]

/-- The bytes that the test expects (tests/shake_prng_test.c:37). -/
def prngOut : Bytes := [42, 69, 166, 190, 134, 52, 115, 60, 114, 28, 58, 189, 38, 1, 241, 41, 17, 231, 66, 106, 190, 30, 57, 229, 27, 81, 147, 251, 182, 120, 212, 239,
  171, 249, 76, 129, 14, 151, 187, 219, 222, 162, 174, 50, 140, 40, 9, 138, 56, 225, 228, 57, 150, 208, 74, 95, 71, 233, 238, 1, 217, 220, 201, 152,
  201, 65, 85, 103, 70, 106, 170, 229, 23, 202, 51, 100, 63, 240, 119, 222, 182, 98, 244, 31, 103, 193, 139, 232, 77, 198, 216, 160, 213, 49, 156, 101]

/-- The deterministic test of tests/shake_prng_test.c:36-56. -/
example : (match Keccak.seedexpanderWrapper (some prngSeed) 32 (some (List.replicate 96 0)) 96 with | .ok (r, some d) => r == 0 && d == prngOut | _ => false) = true := by decide +kernel

/-- The seed of the deterministic seed expander test (tests/test_hybrid.c:87). -/
def seedDet : Bytes := [172, 225, 248, 155, 203, 184, 25, 30, 170, 234, 120, 74, 108, 34, 234, 163, 96, 243, 133, 251, 141, 191, 247, 182, 13, 106, 56, 164, 214, 179, 143, 188,
  253, 182, 185, 124, 21, 89, 72, 245, 198, 128, 37, 144, 170, 127, 227, 74, 207, 38, 218, 180, 9, 3, 70, 186, 30, 164, 224, 215, 225, 70, 242, 170,
  223, 41, 220, 205, 23, 89, 21, 10, 35, 47, 200, 207, 80, 239, 219, 143, 117, 90, 17, 81, 123, 238, 48, 187, 49, 28, 23, 95, 251, 233, 247, 76]

/-- The bytes that the test expects (tests/test_hybrid.c:89). -/
def expectedExpandedSeed : Bytes := [164, 112, 179, 200, 61, 89, 69, 78, 1, 89, 229, 44, 54, 201, 107, 104, 54, 62, 47, 58, 160, 249, 241, 178, 162, 136, 246, 83, 253, 89, 108, 138,
  223, 41, 220, 205, 23, 89, 21, 10, 35, 47, 200, 207, 80, 239, 219, 143, 117, 90, 17, 81, 123, 238, 48, 187, 49, 28, 23, 95, 251, 233, 247, 76,
  162, 119, 56, 52, 120, 78, 179, 99, 38, 91, 246, 87, 201, 159, 152, 122, 94, 47, 110, 203, 200, 250, 99, 9, 172, 241, 11, 195, 231, 177, 73, 250,
  221, 22, 173, 39, 38, 112, 212, 31, 61, 97, 206, 203, 168, 175, 253, 161, 189, 135, 204, 75, 56, 65, 107, 240, 239, 158, 180, 155, 254, 171, 213, 115,
  94, 105, 96, 63, 162, 43, 34, 135, 20, 255, 183, 35, 18, 9, 210, 230, 214, 185, 23, 134, 137, 205, 183, 208, 118, 1, 84, 200, 204, 130, 143, 241]

/-- Memory with the seed of the test and a buffer of 160 bytes (tests/test_hybrid.c:87-88). -/
def detWorld : World := { Hybrid.Toy.demo with mem := fun b => if b = 0 then some seedDet else if b = 1 then some (List.replicate 160 0) else none, sp := 2 }

/-- The deterministic seed expander test of tests/test_hybrid.c:86-97, with the double increment of defect 1. -/
example : (match Hybrid.seedExpander (Real.real 0) (some ⟨0, 0⟩) (some ⟨1, 0⟩) detWorld with | .ok (r, W) => r == 0 && W.view ⟨1, 0⟩ 160 == some expectedExpandedSeed | .error _ => false) = true := by
  decide +kernel

/-- HSalsa20, the first example of "Cryptography in NaCl", with `u32` of 32 bits. -/
example : gives (Nacl.coreHsalsa20 32 (List.replicate 32 0) (List.replicate 16 0) [74, 93, 157, 91, 164, 206, 45, 225, 114, 142, 59, 244, 128, 53, 15, 37, 224, 126, 33, 201, 71, 209, 158, 51, 118, 240, 155, 60, 30, 22, 23, 66] Nacl.sigma) [27, 39, 85, 100, 115, 233, 133, 212, 98, 205, 81, 25, 122, 154, 70, 199, 96, 9, 84, 158, 172, 100, 116, 242, 6, 196, 238, 8, 68, 246, 131, 137] = true := by decide +kernel

/-- HSalsa20, the first example of "Cryptography in NaCl", with `u32` of 64 bits. -/
example : gives (Nacl.coreHsalsa20 64 (List.replicate 32 0) (List.replicate 16 0) [74, 93, 157, 91, 164, 206, 45, 225, 114, 142, 59, 244, 128, 53, 15, 37, 224, 126, 33, 201, 71, 209, 158, 51, 118, 240, 155, 60, 30, 22, 23, 66] Nacl.sigma) [27, 39, 85, 100, 115, 233, 133, 212, 98, 205, 81, 25, 122, 154, 70, 199, 96, 9, 84, 158, 172, 100, 116, 242, 6, 196, 238, 8, 68, 246, 131, 137] = true := by decide +kernel

/-- Poly1305, RFC 8439 2.5.2, with `u32` of 32 bits. -/
example : gives (Nacl.onetimeauth 32 (List.replicate 16 0) 0 [67, 114, 121, 112, 116, 111, 103, 114, 97, 112, 104, 105, 99, 32, 70, 111, 114, 117, 109, 32, 82, 101, 115, 101, 97, 114, 99, 104, 32, 71, 114, 111,
  117, 112] 0 34 [133, 214, 190, 120, 87, 85, 109, 51, 127, 68, 82, 254, 66, 213, 6, 168, 1, 3, 128, 138, 251, 13, 178, 253, 74, 191, 246, 175, 65, 73, 245, 27]) [168, 6, 29, 193, 48, 81, 54, 198, 194, 43, 139, 175, 12, 1, 39, 169] = true := by decide +kernel

/-- Poly1305, RFC 8439 2.5.2, with `u32` of 64 bits. -/
example : gives (Nacl.onetimeauth 64 (List.replicate 16 0) 0 [67, 114, 121, 112, 116, 111, 103, 114, 97, 112, 104, 105, 99, 32, 70, 111, 114, 117, 109, 32, 82, 101, 115, 101, 97, 114, 99, 104, 32, 71, 114, 111,
  117, 112] 0 34 [133, 214, 190, 120, 87, 85, 109, 51, 127, 68, 82, 254, 66, 213, 6, 168, 1, 3, 128, 138, 251, 13, 178, 253, 74, 191, 246, 175, 65, 73, 245, 27]) [168, 6, 29, 193, 48, 81, 54, 198, 194, 43, 139, 175, 12, 1, 39, 169] = true := by decide +kernel

end Verif.Vectors
