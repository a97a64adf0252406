import Verif.Base
import Verif.Mem
import Verif.Hybrid.Model
import Verif.Hybrid.Spec
import Verif.Hybrid.Exec
import Verif.Hybrid.Lemmas
import Verif.Hybrid.Toy
import Verif.Hybrid.Effects
import Verif.Hybrid.Props
import Verif.Hybrid.Props2
import Verif.Hybrid.Props3
import Verif.Hybrid.Overlap
import Verif.Hybrid.OverlapProps
import Verif.Keccak.Spec
import Verif.Keccak.Model
import Verif.Keccak.Perm
import Verif.Keccak.Sponge
import Verif.Keccak.Fips
import Verif.Keccak.Props
import Verif.Sphincs.Spec
import Verif.Sphincs.Model
import Verif.Sphincs.Lemmas
import Verif.Sphincs.Tree
import Verif.Sphincs.Wots
import Verif.Sphincs.Exec
import Verif.Sphincs.Top
import Verif.Sphincs.Props
import Verif.Sphincs.Props2
import Verif.Sphincs.Treehash
import Verif.Sphincs.TreehashProps
import Verif.Sphincs.ForgeSpec
import Verif.Sphincs.Forge
import Verif.Sphincs.ForgeProps
import Verif.Dilithium.Spec
import Verif.Dilithium.Model
import Verif.Dilithium.Reduce
import Verif.Dilithium.Ntt
import Verif.Dilithium.NttZ
import Verif.Dilithium.Pack
import Verif.Dilithium.Encode
import Verif.Dilithium.Poly
import Verif.Dilithium.Hint
import Verif.Dilithium.Sample
import Verif.Dilithium.Ring
import Verif.Dilithium.Exec
import Verif.Dilithium.Run
import Verif.Dilithium.Correct
import Verif.Dilithium.Final
import Verif.Dilithium.Props
import Verif.Dilithium.ForgeSpec
import Verif.Dilithium.Forge
import Verif.Ed25519.Prime
import Verif.Ed25519.Curve
import Verif.Ed25519.Spec
import Verif.Ed25519.Model
import Verif.Ed25519.Limbs
import Verif.Ed25519.Field
import Verif.Ed25519.Pack
import Verif.Ed25519.Elem
import Verif.Ed25519.Group
import Verif.Ed25519.Decode
import Verif.Ed25519.Sha
import Verif.Ed25519.Scalar
import Verif.Ed25519.Top
import Verif.Ed25519.Props
import Verif.Ed25519.PrimeL
import Verif.Ed25519.ForgeProps
import Verif.Random.Model
import Verif.Random.Spec
import Verif.Random.Props
import Verif.Real.Model
import Verif.Real.Contracts
import Verif.Real.Spec
import Verif.Real.Props
import Verif.Real.Props2
import Verif.Real.Props3
import Verif.Nacl.Model
import Verif.Nacl.Spec
import Verif.Nacl.Salsa
import Verif.Nacl.Stream
import Verif.Nacl.Poly
import Verif.Nacl.Auth
import Verif.Nacl.Box
import Verif.Nacl.Curve
import Verif.Nacl.Ladder
import Verif.Nacl.X25519
import Verif.Nacl.Dh
import Verif.Nacl.Props
import Verif.Wasm.Model
import Verif.Wasm.Props
import Verif.Dilithium.HeapProps
import Verif.Sphincs.HeapProps
import Verif.Random.EntropyProps
import Verif.Random.OtherProps
import Verif.Real.Session
import Verif.Real.Forgery
import Verif.Real.ForgeryProps2
import Verif.Ct.Base
import Verif.Ct.Ed25519
import Verif.Ct.Ed25519Lemmas
import Verif.Ct.Nacl
import Verif.Ct.NaclLemmas
import Verif.Ct.NaclProps
import Verif.Ct.Keccak
import Verif.Ct.KeccakLemmas
import Verif.Ct.KeccakProps
import Verif.Ct.Sphincs
import Verif.Ct.SphincsLemmas
import Verif.Ct.SphincsSame
import Verif.Ct.SphincsProps
import Verif.Ct.Dilithium
import Verif.Ct.DilithiumLemmas
import Verif.Ct.DilithiumSame
import Verif.Ct.DilithiumSpec
import Verif.Ct.DilithiumSign
import Verif.Ct.DilithiumAttempt
import Verif.Ct.DilithiumProps
import Verif.Witness.Keccak
import Verif.Witness.Sponge
import Verif.Witness.Poly
import Verif.Witness.Sound
import Verif.Witness.Data
import Verif.Witness.Check
import Verif.Dilithium.ForgeProps
import Verif.Dilithium.UnbiasedSpec
import Verif.Dilithium.Unbiased
import Verif.Dilithium.UnbiasedBall
import Verif.Dilithium.UnbiasedProps
import Verif.Dilithium.SimSpec
import Verif.Dilithium.Sim
import Verif.Dilithium.SimProps
import Verif.Sphincs.Balance
import Verif.Sphincs.BalanceProps
import Verif.Ed25519.BalanceProps
import Verif.Ed25519.Order
import Verif.Ed25519.OrderProps
import Verif.Witness.Hybrid
import Verif.Witness.DataC
import Verif.Witness.CheckC
import Verif.Witness.HybridC
import Verif.Real.ForgeryProps3
import Verif.Real.MalleableProps
import Verif.Real.ForgeryProps4
import Verif.Ct.Hybrid
import Verif.Ct.HybridLemmas
import Verif.Ct.HybridTraces
import Verif.Ct.HybridProps
import Verif.Real.SubstProps
import Verif.Real.WeakKey
import Verif.Real.WeakKeyProps
import Verif.Nacl.Universal
import Verif.Nacl.UniversalProps
import Verif.Keccak.Bijective
import Verif.Keccak.BijectiveProps
import Verif.Nacl.PrimeT
import Verif.Nacl.Order
import Verif.Nacl.Frob
import Verif.Nacl.Small
import Verif.Nacl.OrderProps
import Verif.Real.ExpandedProps
import Verif.Real.DilithiumProps
import Verif.Dilithium.DetProps
import Verif.Sphincs.HeapAllProps
import Verif.Dilithium.HeapCountProps
import Verif.Ed25519.ShaLemmas
import Verif.Ed25519.ShaProps
import Verif.Nacl.SalsaLemmas
import Verif.Nacl.SalsaProps
import Verif.Real.KeyUseProps
import Verif.Real.HeapProps
import Verif.Real.RepeatProps
import Verif.Real.MismatchProps
import Verif.Sphincs.HideProps
import Verif.Dilithium.MaskProps
import Verif.Conc.Props
import Verif.Conc.RaceFalseProps
import Verif.Conc.SignFalseProps
import Verif.Conc.RaceKeyProps
import Verif.Conc.VerifyRaceProps
import Verif.Conc.VerifyAcceptProps
import Verif.Conc.Windows
import Verif.Conc.VerifyEq
import Verif.Conc.TwoKeys
import Verif.Conc.VerifyEqProps
import Verif.Conc.Wait
import Verif.Conc.WaitProps
import Verif.Conc.ExactProps
import Verif.Vectors
