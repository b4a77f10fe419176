import Verif.Lemmas.FastLadder
/-!
The points of the starting curve with abscissas `1 + k + i` for `k = 1, 2, 3`, from which `torsion_basis` makes the points of
order `d1`: evaluation in the kernel.
-/
namespace Festa
open RootOps WeierstrassCurve.Affine
namespace N2

/-- `p + 1`. -/
def kN : Nat := 124813370954946046625522215052328020445810037362111132960613286328441356722257752720010881927037475586399470137805050608043019087433283648739803958123964308223782110847178313188451195825370794537039688326247916639251700565349771267011273687997230352082398376708996664995018346239500252227115749220824758109724758742435933984445935095514141882211364143691731115285217804939575916379504640000
/-- The product of the primes of `d1`. -/
def kRad : Nat := 45091105012599476639162200114978496301
/-- The primes of `d1`. -/
def kPrimes : List Nat := [3, 19, 29, 37, 83, 139, 167, 251, 419, 421, 701, 839, 1009, 1259, 3061, 3779]
/-- `1 + k + i`. -/
def kx (k : Nat) : N2 := ⟨1 + k, 1⟩
/-- The right-hand side of the equation of the curve. -/
def krhs (x : N2) : N2 := mul x (add (mul x (add x ⟨6, 0⟩)) ⟨1, 0⟩)
/-- Square roots of the right-hand sides for `k = 1` and `k = 3`. -/
def ky1 : N2 := ⟨32198814097689971444837444274665652594467489406382041313181594483185293437779519890566143608222687725474008200310242260842413856886233293509252213061558119653021211394104365745840271573117527275968135297012201308958466974479984624774336243547869983519694006238760053969718428848055789472668477759060376277291000473065216099686585290296307442985711809073762664328048088996986988834857734248, 6959016217656825813386953281028727649998088521080841681147501862734515118263208413640278443846101621842309307827361226913264743338805614464753475470654271330507390878958243736461585824895177829263254131147508450501333915173323860977888533808944682742296577733059856524812372359648452273422237070026974319216077095096710436821532159071995184875718926222521371502720470745132408606926492612⟩
def ky3 : N2 := ⟨46724033033244678941608168720073832170801565534954298753087401356836249163045047946163104569354189101263297745296220841970625171437509328825108417144311110650287054542976195251813874299258876853424078435241557745312088633505606104224513417525679963227013118753324056996907354171313906132081900125481563545054111221347271226798247511677699642425092099442732773259482045602979713652322497753, 122930511673728250392599352534746105005555964832012986772462638381312031002227858083936899919663911088945034367064492996477038660330298076637407350388026155906745652858692809765559612976977504088854185435254274037794559553272151457011319894172731240588250816156664671221519891531936240410558467064495583783827339082822107961216816750413262748689179754288484860872300144567061370520220003184⟩

def forceP {α : Type} (x : N2 × N2) (f : N2 × N2 → α) : α := force2 x.1 fun a => force2 x.2 fun b => f (a, b)

theorem forceP_eq {α : Type} (x : N2 × N2) (f : N2 × N2 → α) : forceP x f = f x := by simp only [forceP, force2_eq]

/-- The multiples of two points by `m` are not zero, and the second one is no multiple of the first one (`t` bounds the digits of `m`). -/
def checkPrime (R R' : N2 × N2) (l m t : Nat) : Bool :=
  forceP (lad R.1 R.2 m t) fun S => forceP (lad R'.1 R'.2 m t) fun T => forceP (lad S.1 S.2 2 t) fun S2 =>
    !S.1.isZero && !S.2.isZero && !T.2.isZero && apart T.1 T.2 S.1 S.2 ((l - 1) / 2) ⟨S.1, S.2, S2.1, S2.2⟩

/-- The point with abscissa `kx k` times `kN / kRad`. -/
def kpt (k : Nat) : N2 × N2 := lad (kx k) ⟨1, 0⟩ (kN / kRad) 1300

def kNotZero (R : N2 × N2) : Bool := !R.1.isZero && !R.2.isZero

def checkAll : Bool :=
  forceP (kpt 1) fun R1 => forceP (kpt 2) fun R2 => forceP (kpt 3) fun R3 =>
    kNotZero R1 && kNotZero R2 && kNotZero R3 && checkPrime R1 R2 19 (kRad / 19) 160 && kPrimes.all fun l => checkPrime R1 R3 l (kRad / l) 160

set_option maxRecDepth 100000 in
theorem checkAll_true : checkAll = true := by decide +kernel

theorem check_squares : (sub (mul ky1 ky1) (krhs (kx 1))).isZero = true ∧ (sub (mul ky3 ky3) (krhs (kx 3))).isZero = true := by
  decide +kernel

theorem check_nonsquare : (sub (powGo (krhs (kx 0)) ((kP * kP - 1) / 2) 2590 ⟨1, 0⟩) ⟨1, 0⟩).isZero = false ∧
    (krhs (kx 0)).isZero = false := by decide +kernel

end N2
end Festa
