import Verif.Model.Festa
/-! The benchmark of main.rs. -/
namespace Festa
variable {K : Type} [Field K] [DecidableEq K] [RootOps K]

/-- One round of `festa_trapdoor_bench`, main.rs:29-45, as a function of the numbers and points drawn: `r11`, `r22`, `drawsA1`,
`drawsA2` in `keygen`, `s1`, `s2`, `r` in `gen_random_trapdoor_input`.  `none` is a panic, of one of the functions called or
of `assert_eq!` (main.rs:44).  The printing of the elapsed times is left out. -/
def Crypto.bench (chk : Bool) (fuel : Nat) (S : Crypto K) (r11 r22 : Nat) (drawsA1 drawsA2 : List (List (List (K × Bool))))
    (s1 s2 r : Nat) : Option Unit := do
  let (pubkey, seckey) ← S.keygen chk fuel r11 r22 drawsA1 drawsA2
  let input ← genInput S.c s1 s2 r
  let output ← S.trapdoorEval chk fuel pubkey input
  let inverted ← S.trapdoorInverse chk fuel output seckey
  if input.eq inverted then some () else none

end Festa
