import Verif.Spec.Theta
/-! Polynomial identities behind the theta arithmetic: the two ways of doubling agree on the Kummer
surface, and squared theta coordinates map Kummer surface to Kummer surface. -/
namespace Festa
section
variable {K : Type*} [CommRing K]

/-- The quadratic relation between two doubling formulas, as a multiple of the Kummer quartic. -/
theorem double_rel {a b c d x y z t e0 e1 e2 e3 w0 w1 w2 w3 : K}
    (h0 : e0 = a^2+b^2+c^2+d^2) (h1 : e1 = a^2-b^2+c^2-d^2)
    (h2 : e2 = a^2+b^2-c^2-d^2) (h3 : e3 = a^2-b^2-c^2+d^2)
    (k0 : w0 = (x^2+y^2+z^2+t^2)^2*e1*e2*e3) (k1 : w1 = (x^2-y^2+z^2-t^2)^2*e0*e2*e3)
    (k2 : w2 = (x^2+y^2-z^2-t^2)^2*e0*e1*e3) (k3 : w3 = (x^2-y^2-z^2+t^2)^2*e0*e1*e2) :
    2*(a*b+c*d)*((w0+w1+w2+w3)*b*(b*c*d)+(w0-w1+w2-w3)*a*(a*c*d)
      +(w0+w1-w2-w3)*d*(a*b*d)+(w0-w1-w2+w3)*c*(a*b*c))
    - 16*(x*y+z*t)^2*(a*b*c*d)*(e0*e1*e2*e3) =
    -16*((a^2*b^2-c^2*d^2)*(a^2*c^2-b^2*d^2)*(a^2*d^2-b^2*c^2)*(x^4+y^4+z^4+t^4)
    - (a^4+b^4-c^4-d^4)*(a^2*c^2-b^2*d^2)*(a^2*d^2-b^2*c^2)*(x^2*y^2+z^2*t^2)
    - (a^4-b^4+c^4-d^4)*(a^2*b^2-c^2*d^2)*(a^2*d^2-b^2*c^2)*(x^2*z^2+y^2*t^2)
    - (a^4-b^4-c^4+d^4)*(a^2*b^2-c^2*d^2)*(a^2*c^2-b^2*d^2)*(x^2*t^2+y^2*z^2)
    + 2*(e0*e1*e2*e3)*(a*b*c*d)*(x*y*z*t)) := by
  subst k0 k1 k2 k3 h0 h1 h2 h3
  ring

set_option linter.unusedVariables false

private theorem pres0 {a b c d e0 e1 e2 e3 p q1 q2 q3 r c0 c1 c2 c3 c01 c23 c02 c13 c03 c12 cc : K}
    (h0 : e0 = a+b+c+d) (h1 : e1 = a-b+c-d) (h2 : e2 = a+b-c-d) (h3 : e3 = a-b-c+d)
    (hp : p = (a*b-c*d)*(a*c-b*d)*(a*d-b*c))
    (hq1 : q1 = (a^2+b^2-c^2-d^2)*(a*c-b*d)*(a*d-b*c))
    (hq2 : q2 = (a^2-b^2+c^2-d^2)*(a*b-c*d)*(a*d-b*c))
    (hq3 : q3 = (a^2-b^2-c^2+d^2)*(a*b-c*d)*(a*c-b*d))
    (hr : r = 4*(a*b*c*d)*(e0*e1*e2*e3)^2)
    (k0 : c0 = p*(e1*e2*e3)^2) (k1 : c1 = p*(e0*e2*e3)^2)
    (k2 : c2 = p*(e0*e1*e3)^2) (k3 : c3 = p*(e0*e1*e2)^2)
    (k01 : c01 = 2*(a*c+b*d)*(a*b-c*d)*(a*d-b*c)*(e0*e1*e2*e3)*(e2*e3))
    (k23 : c23 = 2*(a*c+b*d)*(a*b-c*d)*(a*d-b*c)*(e0*e1*e2*e3)*(e0*e1))
    (k02 : c02 = 2*(a*b+c*d)*(a*c-b*d)*(a*d-b*c)*(e0*e1*e2*e3)*(e1*e3))
    (k13 : c13 = 2*(a*b+c*d)*(a*c-b*d)*(a*d-b*c)*(e0*e1*e2*e3)*(e0*e2))
    (k03 : c03 = 2*(a*d+b*c)*(a*c-b*d)*(a*b-c*d)*(e0*e1*e2*e3)*(e1*e2))
    (k12 : c12 = 2*(a*d+b*c)*(a*c-b*d)*(a*b-c*d)*(e0*e1*e2*e3)*(e0*e3))
    (kk : cc = 8*(a*b*c*d)*(e0*e1*e2*e3)^2) :
    c0 + c1 + c2 + c3 - c01 - c23 - c02 - c13 - c03 - c12 + cc = -64*(p*p) := by
  subst k0 k1 k2 k3 k01 k23 k02 k13 k03 k12 kk hr hq1 hq2 hq3 hp h0 h1 h2 h3
  ring

private theorem pres1 {a b c d e0 e1 e2 e3 p q1 q2 q3 r c0 c1 c2 c3 c01 c23 c02 c13 c03 c12 cc : K}
    (h0 : e0 = a+b+c+d) (h1 : e1 = a-b+c-d) (h2 : e2 = a+b-c-d) (h3 : e3 = a-b-c+d)
    (hp : p = (a*b-c*d)*(a*c-b*d)*(a*d-b*c))
    (hq1 : q1 = (a^2+b^2-c^2-d^2)*(a*c-b*d)*(a*d-b*c))
    (hq2 : q2 = (a^2-b^2+c^2-d^2)*(a*b-c*d)*(a*d-b*c))
    (hq3 : q3 = (a^2-b^2-c^2+d^2)*(a*b-c*d)*(a*c-b*d))
    (hr : r = 4*(a*b*c*d)*(e0*e1*e2*e3)^2)
    (k0 : c0 = p*(e1*e2*e3)^2) (k1 : c1 = p*(e0*e2*e3)^2)
    (k2 : c2 = p*(e0*e1*e3)^2) (k3 : c3 = p*(e0*e1*e2)^2)
    (k01 : c01 = 2*(a*c+b*d)*(a*b-c*d)*(a*d-b*c)*(e0*e1*e2*e3)*(e2*e3))
    (k23 : c23 = 2*(a*c+b*d)*(a*b-c*d)*(a*d-b*c)*(e0*e1*e2*e3)*(e0*e1))
    (k02 : c02 = 2*(a*b+c*d)*(a*c-b*d)*(a*d-b*c)*(e0*e1*e2*e3)*(e1*e3))
    (k13 : c13 = 2*(a*b+c*d)*(a*c-b*d)*(a*d-b*c)*(e0*e1*e2*e3)*(e0*e2))
    (k03 : c03 = 2*(a*d+b*c)*(a*c-b*d)*(a*b-c*d)*(e0*e1*e2*e3)*(e1*e2))
    (k12 : c12 = 2*(a*d+b*c)*(a*c-b*d)*(a*b-c*d)*(e0*e1*e2*e3)*(e0*e3))
    (kk : cc = 8*(a*b*c*d)*(e0*e1*e2*e3)^2) :
    4*c0 - 4*c1 + 4*c2 - 4*c3 - 4*c02 + 4*c13 = -64*(- 2*p*q1) := by
  subst k0 k1 k2 k3 k01 k23 k02 k13 k03 k12 kk hr hq1 hq2 hq3 hp h0 h1 h2 h3
  ring

private theorem pres2 {a b c d e0 e1 e2 e3 p q1 q2 q3 r c0 c1 c2 c3 c01 c23 c02 c13 c03 c12 cc : K}
    (h0 : e0 = a+b+c+d) (h1 : e1 = a-b+c-d) (h2 : e2 = a+b-c-d) (h3 : e3 = a-b-c+d)
    (hp : p = (a*b-c*d)*(a*c-b*d)*(a*d-b*c))
    (hq1 : q1 = (a^2+b^2-c^2-d^2)*(a*c-b*d)*(a*d-b*c))
    (hq2 : q2 = (a^2-b^2+c^2-d^2)*(a*b-c*d)*(a*d-b*c))
    (hq3 : q3 = (a^2-b^2-c^2+d^2)*(a*b-c*d)*(a*c-b*d))
    (hr : r = 4*(a*b*c*d)*(e0*e1*e2*e3)^2)
    (k0 : c0 = p*(e1*e2*e3)^2) (k1 : c1 = p*(e0*e2*e3)^2)
    (k2 : c2 = p*(e0*e1*e3)^2) (k3 : c3 = p*(e0*e1*e2)^2)
    (k01 : c01 = 2*(a*c+b*d)*(a*b-c*d)*(a*d-b*c)*(e0*e1*e2*e3)*(e2*e3))
    (k23 : c23 = 2*(a*c+b*d)*(a*b-c*d)*(a*d-b*c)*(e0*e1*e2*e3)*(e0*e1))
    (k02 : c02 = 2*(a*b+c*d)*(a*c-b*d)*(a*d-b*c)*(e0*e1*e2*e3)*(e1*e3))
    (k13 : c13 = 2*(a*b+c*d)*(a*c-b*d)*(a*d-b*c)*(e0*e1*e2*e3)*(e0*e2))
    (k03 : c03 = 2*(a*d+b*c)*(a*c-b*d)*(a*b-c*d)*(e0*e1*e2*e3)*(e1*e2))
    (k12 : c12 = 2*(a*d+b*c)*(a*c-b*d)*(a*b-c*d)*(e0*e1*e2*e3)*(e0*e3))
    (kk : cc = 8*(a*b*c*d)*(e0*e1*e2*e3)^2) :
    4*c0 + 4*c1 - 4*c2 - 4*c3 - 4*c01 + 4*c23 = -64*(- 2*p*q2) := by
  subst k0 k1 k2 k3 k01 k23 k02 k13 k03 k12 kk hr hq1 hq2 hq3 hp h0 h1 h2 h3
  ring

private theorem pres3 {a b c d e0 e1 e2 e3 p q1 q2 q3 r c0 c1 c2 c3 c01 c23 c02 c13 c03 c12 cc : K}
    (h0 : e0 = a+b+c+d) (h1 : e1 = a-b+c-d) (h2 : e2 = a+b-c-d) (h3 : e3 = a-b-c+d)
    (hp : p = (a*b-c*d)*(a*c-b*d)*(a*d-b*c))
    (hq1 : q1 = (a^2+b^2-c^2-d^2)*(a*c-b*d)*(a*d-b*c))
    (hq2 : q2 = (a^2-b^2+c^2-d^2)*(a*b-c*d)*(a*d-b*c))
    (hq3 : q3 = (a^2-b^2-c^2+d^2)*(a*b-c*d)*(a*c-b*d))
    (hr : r = 4*(a*b*c*d)*(e0*e1*e2*e3)^2)
    (k0 : c0 = p*(e1*e2*e3)^2) (k1 : c1 = p*(e0*e2*e3)^2)
    (k2 : c2 = p*(e0*e1*e3)^2) (k3 : c3 = p*(e0*e1*e2)^2)
    (k01 : c01 = 2*(a*c+b*d)*(a*b-c*d)*(a*d-b*c)*(e0*e1*e2*e3)*(e2*e3))
    (k23 : c23 = 2*(a*c+b*d)*(a*b-c*d)*(a*d-b*c)*(e0*e1*e2*e3)*(e0*e1))
    (k02 : c02 = 2*(a*b+c*d)*(a*c-b*d)*(a*d-b*c)*(e0*e1*e2*e3)*(e1*e3))
    (k13 : c13 = 2*(a*b+c*d)*(a*c-b*d)*(a*d-b*c)*(e0*e1*e2*e3)*(e0*e2))
    (k03 : c03 = 2*(a*d+b*c)*(a*c-b*d)*(a*b-c*d)*(e0*e1*e2*e3)*(e1*e2))
    (k12 : c12 = 2*(a*d+b*c)*(a*c-b*d)*(a*b-c*d)*(e0*e1*e2*e3)*(e0*e3))
    (kk : cc = 8*(a*b*c*d)*(e0*e1*e2*e3)^2) :
    4*c0 - 4*c1 - 4*c2 + 4*c3 - 4*c03 + 4*c12 = -64*(- 2*p*q3) := by
  subst k0 k1 k2 k3 k01 k23 k02 k13 k03 k12 kk hr hq1 hq2 hq3 hp h0 h1 h2 h3
  ring

private theorem pres4 {a b c d e0 e1 e2 e3 p q1 q2 q3 r c0 c1 c2 c3 c01 c23 c02 c13 c03 c12 cc : K}
    (h0 : e0 = a+b+c+d) (h1 : e1 = a-b+c-d) (h2 : e2 = a+b-c-d) (h3 : e3 = a-b-c+d)
    (hp : p = (a*b-c*d)*(a*c-b*d)*(a*d-b*c))
    (hq1 : q1 = (a^2+b^2-c^2-d^2)*(a*c-b*d)*(a*d-b*c))
    (hq2 : q2 = (a^2-b^2+c^2-d^2)*(a*b-c*d)*(a*d-b*c))
    (hq3 : q3 = (a^2-b^2-c^2+d^2)*(a*b-c*d)*(a*c-b*d))
    (hr : r = 4*(a*b*c*d)*(e0*e1*e2*e3)^2)
    (k0 : c0 = p*(e1*e2*e3)^2) (k1 : c1 = p*(e0*e2*e3)^2)
    (k2 : c2 = p*(e0*e1*e3)^2) (k3 : c3 = p*(e0*e1*e2)^2)
    (k01 : c01 = 2*(a*c+b*d)*(a*b-c*d)*(a*d-b*c)*(e0*e1*e2*e3)*(e2*e3))
    (k23 : c23 = 2*(a*c+b*d)*(a*b-c*d)*(a*d-b*c)*(e0*e1*e2*e3)*(e0*e1))
    (k02 : c02 = 2*(a*b+c*d)*(a*c-b*d)*(a*d-b*c)*(e0*e1*e2*e3)*(e1*e3))
    (k13 : c13 = 2*(a*b+c*d)*(a*c-b*d)*(a*d-b*c)*(e0*e1*e2*e3)*(e0*e2))
    (k03 : c03 = 2*(a*d+b*c)*(a*c-b*d)*(a*b-c*d)*(e0*e1*e2*e3)*(e1*e2))
    (k12 : c12 = 2*(a*d+b*c)*(a*c-b*d)*(a*b-c*d)*(e0*e1*e2*e3)*(e0*e3))
    (kk : cc = 8*(a*b*c*d)*(e0*e1*e2*e3)^2) :
    6*c0 + 6*c1 + 6*c2 + 6*c3 + 2*c01 + 2*c23 - 6*c02 - 6*c13 + 2*c03 + 2*c12 - 2*cc = -64*(2*p*p + q1*q1) := by
  subst k0 k1 k2 k3 k01 k23 k02 k13 k03 k12 kk hr hq1 hq2 hq3 hp h0 h1 h2 h3
  ring

private theorem pres5 {a b c d e0 e1 e2 e3 p q1 q2 q3 r c0 c1 c2 c3 c01 c23 c02 c13 c03 c12 cc : K}
    (h0 : e0 = a+b+c+d) (h1 : e1 = a-b+c-d) (h2 : e2 = a+b-c-d) (h3 : e3 = a-b-c+d)
    (hp : p = (a*b-c*d)*(a*c-b*d)*(a*d-b*c))
    (hq1 : q1 = (a^2+b^2-c^2-d^2)*(a*c-b*d)*(a*d-b*c))
    (hq2 : q2 = (a^2-b^2+c^2-d^2)*(a*b-c*d)*(a*d-b*c))
    (hq3 : q3 = (a^2-b^2-c^2+d^2)*(a*b-c*d)*(a*c-b*d))
    (hr : r = 4*(a*b*c*d)*(e0*e1*e2*e3)^2)
    (k0 : c0 = p*(e1*e2*e3)^2) (k1 : c1 = p*(e0*e2*e3)^2)
    (k2 : c2 = p*(e0*e1*e3)^2) (k3 : c3 = p*(e0*e1*e2)^2)
    (k01 : c01 = 2*(a*c+b*d)*(a*b-c*d)*(a*d-b*c)*(e0*e1*e2*e3)*(e2*e3))
    (k23 : c23 = 2*(a*c+b*d)*(a*b-c*d)*(a*d-b*c)*(e0*e1*e2*e3)*(e0*e1))
    (k02 : c02 = 2*(a*b+c*d)*(a*c-b*d)*(a*d-b*c)*(e0*e1*e2*e3)*(e1*e3))
    (k13 : c13 = 2*(a*b+c*d)*(a*c-b*d)*(a*d-b*c)*(e0*e1*e2*e3)*(e0*e2))
    (k03 : c03 = 2*(a*d+b*c)*(a*c-b*d)*(a*b-c*d)*(e0*e1*e2*e3)*(e1*e2))
    (k12 : c12 = 2*(a*d+b*c)*(a*c-b*d)*(a*b-c*d)*(e0*e1*e2*e3)*(e0*e3))
    (kk : cc = 8*(a*b*c*d)*(e0*e1*e2*e3)^2) :
    6*c0 + 6*c1 + 6*c2 + 6*c3 - 6*c01 - 6*c23 + 2*c02 + 2*c13 + 2*c03 + 2*c12 - 2*cc = -64*(2*p*p + q2*q2) := by
  subst k0 k1 k2 k3 k01 k23 k02 k13 k03 k12 kk hr hq1 hq2 hq3 hp h0 h1 h2 h3
  ring

private theorem pres6 {a b c d e0 e1 e2 e3 p q1 q2 q3 r c0 c1 c2 c3 c01 c23 c02 c13 c03 c12 cc : K}
    (h0 : e0 = a+b+c+d) (h1 : e1 = a-b+c-d) (h2 : e2 = a+b-c-d) (h3 : e3 = a-b-c+d)
    (hp : p = (a*b-c*d)*(a*c-b*d)*(a*d-b*c))
    (hq1 : q1 = (a^2+b^2-c^2-d^2)*(a*c-b*d)*(a*d-b*c))
    (hq2 : q2 = (a^2-b^2+c^2-d^2)*(a*b-c*d)*(a*d-b*c))
    (hq3 : q3 = (a^2-b^2-c^2+d^2)*(a*b-c*d)*(a*c-b*d))
    (hr : r = 4*(a*b*c*d)*(e0*e1*e2*e3)^2)
    (k0 : c0 = p*(e1*e2*e3)^2) (k1 : c1 = p*(e0*e2*e3)^2)
    (k2 : c2 = p*(e0*e1*e3)^2) (k3 : c3 = p*(e0*e1*e2)^2)
    (k01 : c01 = 2*(a*c+b*d)*(a*b-c*d)*(a*d-b*c)*(e0*e1*e2*e3)*(e2*e3))
    (k23 : c23 = 2*(a*c+b*d)*(a*b-c*d)*(a*d-b*c)*(e0*e1*e2*e3)*(e0*e1))
    (k02 : c02 = 2*(a*b+c*d)*(a*c-b*d)*(a*d-b*c)*(e0*e1*e2*e3)*(e1*e3))
    (k13 : c13 = 2*(a*b+c*d)*(a*c-b*d)*(a*d-b*c)*(e0*e1*e2*e3)*(e0*e2))
    (k03 : c03 = 2*(a*d+b*c)*(a*c-b*d)*(a*b-c*d)*(e0*e1*e2*e3)*(e1*e2))
    (k12 : c12 = 2*(a*d+b*c)*(a*c-b*d)*(a*b-c*d)*(e0*e1*e2*e3)*(e0*e3))
    (kk : cc = 8*(a*b*c*d)*(e0*e1*e2*e3)^2) :
    6*c0 + 6*c1 + 6*c2 + 6*c3 + 2*c01 + 2*c23 + 2*c02 + 2*c13 - 6*c03 - 6*c12 - 2*cc = -64*(2*p*p + q3*q3) := by
  subst k0 k1 k2 k3 k01 k23 k02 k13 k03 k12 kk hr hq1 hq2 hq3 hp h0 h1 h2 h3
  ring

private theorem pres7 {a b c d e0 e1 e2 e3 p q1 q2 q3 r c0 c1 c2 c3 c01 c23 c02 c13 c03 c12 cc : K}
    (h0 : e0 = a+b+c+d) (h1 : e1 = a-b+c-d) (h2 : e2 = a+b-c-d) (h3 : e3 = a-b-c+d)
    (hp : p = (a*b-c*d)*(a*c-b*d)*(a*d-b*c))
    (hq1 : q1 = (a^2+b^2-c^2-d^2)*(a*c-b*d)*(a*d-b*c))
    (hq2 : q2 = (a^2-b^2+c^2-d^2)*(a*b-c*d)*(a*d-b*c))
    (hq3 : q3 = (a^2-b^2-c^2+d^2)*(a*b-c*d)*(a*c-b*d))
    (hr : r = 4*(a*b*c*d)*(e0*e1*e2*e3)^2)
    (k0 : c0 = p*(e1*e2*e3)^2) (k1 : c1 = p*(e0*e2*e3)^2)
    (k2 : c2 = p*(e0*e1*e3)^2) (k3 : c3 = p*(e0*e1*e2)^2)
    (k01 : c01 = 2*(a*c+b*d)*(a*b-c*d)*(a*d-b*c)*(e0*e1*e2*e3)*(e2*e3))
    (k23 : c23 = 2*(a*c+b*d)*(a*b-c*d)*(a*d-b*c)*(e0*e1*e2*e3)*(e0*e1))
    (k02 : c02 = 2*(a*b+c*d)*(a*c-b*d)*(a*d-b*c)*(e0*e1*e2*e3)*(e1*e3))
    (k13 : c13 = 2*(a*b+c*d)*(a*c-b*d)*(a*d-b*c)*(e0*e1*e2*e3)*(e0*e2))
    (k03 : c03 = 2*(a*d+b*c)*(a*c-b*d)*(a*b-c*d)*(e0*e1*e2*e3)*(e1*e2))
    (k12 : c12 = 2*(a*d+b*c)*(a*c-b*d)*(a*b-c*d)*(e0*e1*e2*e3)*(e0*e3))
    (kk : cc = 8*(a*b*c*d)*(e0*e1*e2*e3)^2) :
    12*c0 - 12*c1 - 12*c2 + 12*c3 + 4*c03 - 4*c12 = -64*(- 2*p*q3 + 2*q1*q2) := by
  subst k0 k1 k2 k3 k01 k23 k02 k13 k03 k12 kk hr hq1 hq2 hq3 hp h0 h1 h2 h3
  ring

private theorem pres8 {a b c d e0 e1 e2 e3 p q1 q2 q3 r c0 c1 c2 c3 c01 c23 c02 c13 c03 c12 cc : K}
    (h0 : e0 = a+b+c+d) (h1 : e1 = a-b+c-d) (h2 : e2 = a+b-c-d) (h3 : e3 = a-b-c+d)
    (hp : p = (a*b-c*d)*(a*c-b*d)*(a*d-b*c))
    (hq1 : q1 = (a^2+b^2-c^2-d^2)*(a*c-b*d)*(a*d-b*c))
    (hq2 : q2 = (a^2-b^2+c^2-d^2)*(a*b-c*d)*(a*d-b*c))
    (hq3 : q3 = (a^2-b^2-c^2+d^2)*(a*b-c*d)*(a*c-b*d))
    (hr : r = 4*(a*b*c*d)*(e0*e1*e2*e3)^2)
    (k0 : c0 = p*(e1*e2*e3)^2) (k1 : c1 = p*(e0*e2*e3)^2)
    (k2 : c2 = p*(e0*e1*e3)^2) (k3 : c3 = p*(e0*e1*e2)^2)
    (k01 : c01 = 2*(a*c+b*d)*(a*b-c*d)*(a*d-b*c)*(e0*e1*e2*e3)*(e2*e3))
    (k23 : c23 = 2*(a*c+b*d)*(a*b-c*d)*(a*d-b*c)*(e0*e1*e2*e3)*(e0*e1))
    (k02 : c02 = 2*(a*b+c*d)*(a*c-b*d)*(a*d-b*c)*(e0*e1*e2*e3)*(e1*e3))
    (k13 : c13 = 2*(a*b+c*d)*(a*c-b*d)*(a*d-b*c)*(e0*e1*e2*e3)*(e0*e2))
    (k03 : c03 = 2*(a*d+b*c)*(a*c-b*d)*(a*b-c*d)*(e0*e1*e2*e3)*(e1*e2))
    (k12 : c12 = 2*(a*d+b*c)*(a*c-b*d)*(a*b-c*d)*(e0*e1*e2*e3)*(e0*e3))
    (kk : cc = 8*(a*b*c*d)*(e0*e1*e2*e3)^2) :
    12*c0 + 12*c1 - 12*c2 - 12*c3 + 4*c01 - 4*c23 = -64*(- 2*p*q2 + 2*q1*q3) := by
  subst k0 k1 k2 k3 k01 k23 k02 k13 k03 k12 kk hr hq1 hq2 hq3 hp h0 h1 h2 h3
  ring

private theorem pres9 {a b c d e0 e1 e2 e3 p q1 q2 q3 r c0 c1 c2 c3 c01 c23 c02 c13 c03 c12 cc : K}
    (h0 : e0 = a+b+c+d) (h1 : e1 = a-b+c-d) (h2 : e2 = a+b-c-d) (h3 : e3 = a-b-c+d)
    (hp : p = (a*b-c*d)*(a*c-b*d)*(a*d-b*c))
    (hq1 : q1 = (a^2+b^2-c^2-d^2)*(a*c-b*d)*(a*d-b*c))
    (hq2 : q2 = (a^2-b^2+c^2-d^2)*(a*b-c*d)*(a*d-b*c))
    (hq3 : q3 = (a^2-b^2-c^2+d^2)*(a*b-c*d)*(a*c-b*d))
    (hr : r = 4*(a*b*c*d)*(e0*e1*e2*e3)^2)
    (k0 : c0 = p*(e1*e2*e3)^2) (k1 : c1 = p*(e0*e2*e3)^2)
    (k2 : c2 = p*(e0*e1*e3)^2) (k3 : c3 = p*(e0*e1*e2)^2)
    (k01 : c01 = 2*(a*c+b*d)*(a*b-c*d)*(a*d-b*c)*(e0*e1*e2*e3)*(e2*e3))
    (k23 : c23 = 2*(a*c+b*d)*(a*b-c*d)*(a*d-b*c)*(e0*e1*e2*e3)*(e0*e1))
    (k02 : c02 = 2*(a*b+c*d)*(a*c-b*d)*(a*d-b*c)*(e0*e1*e2*e3)*(e1*e3))
    (k13 : c13 = 2*(a*b+c*d)*(a*c-b*d)*(a*d-b*c)*(e0*e1*e2*e3)*(e0*e2))
    (k03 : c03 = 2*(a*d+b*c)*(a*c-b*d)*(a*b-c*d)*(e0*e1*e2*e3)*(e1*e2))
    (k12 : c12 = 2*(a*d+b*c)*(a*c-b*d)*(a*b-c*d)*(e0*e1*e2*e3)*(e0*e3))
    (kk : cc = 8*(a*b*c*d)*(e0*e1*e2*e3)^2) :
    12*c0 - 12*c1 + 12*c2 - 12*c3 + 4*c02 - 4*c13 = -64*(- 2*p*q1 + 2*q2*q3) := by
  subst k0 k1 k2 k3 k01 k23 k02 k13 k03 k12 kk hr hq1 hq2 hq3 hp h0 h1 h2 h3
  ring

private theorem pres10 {a b c d e0 e1 e2 e3 p q1 q2 q3 r c0 c1 c2 c3 c01 c23 c02 c13 c03 c12 cc : K}
    (h0 : e0 = a+b+c+d) (h1 : e1 = a-b+c-d) (h2 : e2 = a+b-c-d) (h3 : e3 = a-b-c+d)
    (hp : p = (a*b-c*d)*(a*c-b*d)*(a*d-b*c))
    (hq1 : q1 = (a^2+b^2-c^2-d^2)*(a*c-b*d)*(a*d-b*c))
    (hq2 : q2 = (a^2-b^2+c^2-d^2)*(a*b-c*d)*(a*d-b*c))
    (hq3 : q3 = (a^2-b^2-c^2+d^2)*(a*b-c*d)*(a*c-b*d))
    (hr : r = 4*(a*b*c*d)*(e0*e1*e2*e3)^2)
    (k0 : c0 = p*(e1*e2*e3)^2) (k1 : c1 = p*(e0*e2*e3)^2)
    (k2 : c2 = p*(e0*e1*e3)^2) (k3 : c3 = p*(e0*e1*e2)^2)
    (k01 : c01 = 2*(a*c+b*d)*(a*b-c*d)*(a*d-b*c)*(e0*e1*e2*e3)*(e2*e3))
    (k23 : c23 = 2*(a*c+b*d)*(a*b-c*d)*(a*d-b*c)*(e0*e1*e2*e3)*(e0*e1))
    (k02 : c02 = 2*(a*b+c*d)*(a*c-b*d)*(a*d-b*c)*(e0*e1*e2*e3)*(e1*e3))
    (k13 : c13 = 2*(a*b+c*d)*(a*c-b*d)*(a*d-b*c)*(e0*e1*e2*e3)*(e0*e2))
    (k03 : c03 = 2*(a*d+b*c)*(a*c-b*d)*(a*b-c*d)*(e0*e1*e2*e3)*(e1*e2))
    (k12 : c12 = 2*(a*d+b*c)*(a*c-b*d)*(a*b-c*d)*(e0*e1*e2*e3)*(e0*e3))
    (kk : cc = 8*(a*b*c*d)*(e0*e1*e2*e3)^2) :
    24*c0 + 24*c1 + 24*c2 + 24*c3 + 8*c01 + 8*c23 + 8*c02 + 8*c13 + 8*c03 + 8*c12 + 8*cc = -64*(2*q1*q1 + 2*q2*q2 + 2*q3*q3 - r) := by
  subst k0 k1 k2 k3 k01 k23 k02 k13 k03 k12 kk hr hq1 hq2 hq3 hp h0 h1 h2 h3
  ring

theorem pres_aux (x y z t : K) {s0 s1 s2 s3 : K}
    (m0 : s0 = x+y+z+t) (m1 : s1 = x-y+z-t) (m2 : s2 = x+y-z-t) (m3 : s3 = x-y-z+t)
    {a b c d e0 e1 e2 e3 p q1 q2 q3 r c0 c1 c2 c3 c01 c23 c02 c13 c03 c12 cc : K}
    (h0 : e0 = a+b+c+d) (h1 : e1 = a-b+c-d) (h2 : e2 = a+b-c-d) (h3 : e3 = a-b-c+d)
    (hp : p = (a*b-c*d)*(a*c-b*d)*(a*d-b*c))
    (hq1 : q1 = (a^2+b^2-c^2-d^2)*(a*c-b*d)*(a*d-b*c))
    (hq2 : q2 = (a^2-b^2+c^2-d^2)*(a*b-c*d)*(a*d-b*c))
    (hq3 : q3 = (a^2-b^2-c^2+d^2)*(a*b-c*d)*(a*c-b*d))
    (hr : r = 4*(a*b*c*d)*(e0*e1*e2*e3)^2)
    (k0 : c0 = p*(e1*e2*e3)^2) (k1 : c1 = p*(e0*e2*e3)^2)
    (k2 : c2 = p*(e0*e1*e3)^2) (k3 : c3 = p*(e0*e1*e2)^2)
    (k01 : c01 = 2*(a*c+b*d)*(a*b-c*d)*(a*d-b*c)*(e0*e1*e2*e3)*(e2*e3))
    (k23 : c23 = 2*(a*c+b*d)*(a*b-c*d)*(a*d-b*c)*(e0*e1*e2*e3)*(e0*e1))
    (k02 : c02 = 2*(a*b+c*d)*(a*c-b*d)*(a*d-b*c)*(e0*e1*e2*e3)*(e1*e3))
    (k13 : c13 = 2*(a*b+c*d)*(a*c-b*d)*(a*d-b*c)*(e0*e1*e2*e3)*(e0*e2))
    (k03 : c03 = 2*(a*d+b*c)*(a*c-b*d)*(a*b-c*d)*(e0*e1*e2*e3)*(e1*e2))
    (k12 : c12 = 2*(a*d+b*c)*(a*c-b*d)*(a*b-c*d)*(e0*e1*e2*e3)*(e0*e3))
    (kk : cc = 8*(a*b*c*d)*(e0*e1*e2*e3)^2) :
    c0*s0^4 + c1*s1^4 + c2*s2^4 + c3*s3^4 - c01*(s0^2*s1^2) - c23*(s2^2*s3^2) - c02*(s0^2*s2^2)
      - c13*(s1^2*s3^2) - c03*(s0^2*s3^2) - c12*(s1^2*s2^2) + cc*(s0*s1*s2*s3) =
    -64*((p*(x^2+y^2+z^2+t^2) - q1*(x*y+z*t) - q2*(x*z+y*t) - q3*(x*t+y*z))^2 - r*(x*y*z*t)) := by
  have g0 := pres0 h0 h1 h2 h3 hp hq1 hq2 hq3 hr k0 k1 k2 k3 k01 k23 k02 k13 k03 k12 kk
  have g1 := pres1 h0 h1 h2 h3 hp hq1 hq2 hq3 hr k0 k1 k2 k3 k01 k23 k02 k13 k03 k12 kk
  have g2 := pres2 h0 h1 h2 h3 hp hq1 hq2 hq3 hr k0 k1 k2 k3 k01 k23 k02 k13 k03 k12 kk
  have g3 := pres3 h0 h1 h2 h3 hp hq1 hq2 hq3 hr k0 k1 k2 k3 k01 k23 k02 k13 k03 k12 kk
  have g4 := pres4 h0 h1 h2 h3 hp hq1 hq2 hq3 hr k0 k1 k2 k3 k01 k23 k02 k13 k03 k12 kk
  have g5 := pres5 h0 h1 h2 h3 hp hq1 hq2 hq3 hr k0 k1 k2 k3 k01 k23 k02 k13 k03 k12 kk
  have g6 := pres6 h0 h1 h2 h3 hp hq1 hq2 hq3 hr k0 k1 k2 k3 k01 k23 k02 k13 k03 k12 kk
  have g7 := pres7 h0 h1 h2 h3 hp hq1 hq2 hq3 hr k0 k1 k2 k3 k01 k23 k02 k13 k03 k12 kk
  have g8 := pres8 h0 h1 h2 h3 hp hq1 hq2 hq3 hr k0 k1 k2 k3 k01 k23 k02 k13 k03 k12 kk
  have g9 := pres9 h0 h1 h2 h3 hp hq1 hq2 hq3 hr k0 k1 k2 k3 k01 k23 k02 k13 k03 k12 kk
  have g10 := pres10 h0 h1 h2 h3 hp hq1 hq2 hq3 hr k0 k1 k2 k3 k01 k23 k02 k13 k03 k12 kk
  clear h0 h1 h2 h3 hp hq1 hq2 hq3 hr k0 k1 k2 k3 k01 k23 k02 k13 k03 k12 kk
  subst m0 m1 m2 m3
  linear_combination g0*(x^4 + y^4 + z^4 + t^4) + g1*(x^3*y + x*y^3 + z^3*t + z*t^3) + g2*(x^3*z + x*z^3 + y^3*t + y*t^3) + g3*(x^3*t + x*t^3 + y^3*z + y*z^3) + g4*(x^2*y^2 + z^2*t^2) + g5*(x^2*z^2 + y^2*t^2) + g6*(x^2*t^2 + y^2*z^2) + g7*(x^2*y*z + x*y^2*t + x*z^2*t + y*z*t^2) + g8*(x^2*y*t + x*y^2*z + x*z*t^2 + y*z^2*t) + g9*(x^2*z*t + x*y*z^2 + x*y*t^2 + y^2*z*t) + g10*(x*y*z*t)

end
end Festa
