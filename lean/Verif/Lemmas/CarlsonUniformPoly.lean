import Mathlib.Data.Real.Basic
import Mathlib.Tactic.Linarith
import Mathlib.Tactic.Positivity
import Mathlib.Tactic.Ring

/-! Polynomial inequalities used for the uniform error bound of the Carlson loops, each by its
Bernstein coefficients on the interval. -/
namespace Wiz

/-- the first-kind series factor near 0 -/
theorem cu_f_small {h : ℝ} (h1 : 0 ≤ h) (h2 : h ≤ (3/4)) :
    (h^2/30 + h^3/189 + h^4/216 + 1/594*h^5 + (5/5616 + 3*4/(104*729))*h^6) ≤ 1/40 := by
  have u0 : 0 ≤ h-0 := by linarith
  have v0 : 0 ≤ (3/4)-h := by linarith
  have key : 1/40 - ((h^2/30 + h^3/189 + h^4/216 + 1/594*h^5 + (5/5616 + 3*4/(104*729))*h^6)) = (512/3645)*((h-0)^0*((3/4)-h)^6) + (1024/1215)*((h-0)^1*((3/4)-h)^5) + (2432/1215)*((h-0)^2*((3/4)-h)^4) + (60608/25515)*((h-0)^3*((3/4)-h)^3) + (12154/8505)*((h-0)^4*((3/4)-h)^2) + (34154/93555)*((h-0)^5*((3/4)-h)^1) + (215051/19459440)*((h-0)^6*((3/4)-h)^0) := by ring
  have pos : 0 ≤ (512/3645)*((h-0)^0*((3/4)-h)^6) + (1024/1215)*((h-0)^1*((3/4)-h)^5) + (2432/1215)*((h-0)^2*((3/4)-h)^4) + (60608/25515)*((h-0)^3*((3/4)-h)^3) + (12154/8505)*((h-0)^4*((3/4)-h)^2) + (34154/93555)*((h-0)^5*((3/4)-h)^1) + (215051/19459440)*((h-0)^6*((3/4)-h)^0) := by positivity
  linarith

/-- the first-kind series factor -/
theorem cu_f_large {h : ℝ} (h1 : (3/4) ≤ h) (h2 : h ≤ 3) :
    2*(1 - h/3)^2*(h^2/30 + h^3/189 + h^4/216 + 1/594*h^5 + (5/5616 + 3*4/(104*729))*h^6) ≤ 1/20*(3/2*h - 1/2) := by
  have u0 : 0 ≤ h-(3/4) := by linarith
  have v0 : 0 ≤ 3-h := by linarith
  have key : 1/20*(3/2*h - 1/2) - (2*(1 - h/3)^2*(h^2/30 + h^3/189 + h^4/216 + 1/594*h^5 + (5/5616 + 3*4/(104*729))*h^6)) = (14006569/1723590708840)*((h-(3/4))^0*(3-h)^8) + (27492727/215448838605)*((h-(3/4))^1*(3-h)^7) + (116391074/215448838605)*((h-(3/4))^2*(3-h)^6) + (39299872/30778405515)*((h-(3/4))^3*(3-h)^5) + (461110112/215448838605)*((h-(3/4))^4*(3-h)^4) + (637555456/215448838605)*((h-(3/4))^5*(3-h)^3) + (714550784/215448838605)*((h-(3/4))^6*(3-h)^2) + (468992/215233605)*((h-(3/4))^7*(3-h)^1) + (65536/215233605)*((h-(3/4))^8*(3-h)^0) := by ring
  have pos : 0 ≤ (14006569/1723590708840)*((h-(3/4))^0*(3-h)^8) + (27492727/215448838605)*((h-(3/4))^1*(3-h)^7) + (116391074/215448838605)*((h-(3/4))^2*(3-h)^6) + (39299872/30778405515)*((h-(3/4))^3*(3-h)^5) + (461110112/215448838605)*((h-(3/4))^4*(3-h)^4) + (637555456/215448838605)*((h-(3/4))^5*(3-h)^3) + (714550784/215448838605)*((h-(3/4))^6*(3-h)^2) + (468992/215233605)*((h-(3/4))^7*(3-h)^1) + (65536/215233605)*((h-(3/4))^8*(3-h)^0) := by positivity
  linarith

/-- geometric against arithmetic mean -/
theorem cu_g_small {w : ℝ} (h1 : 0 ≤ w) (h2 : w ≤ (3/4)) :
    8*w^5*((1+3*w+w^2)+3)^3 ≤ (1/20*((1+3*w+w^2)+3) + 12*w^2)^3*(1+w) := by
  have u0 : 0 ≤ w-0 := by linarith
  have v0 : 0 ≤ (3/4)-w := by linarith
  have key : (1/20*((1+3*w+w^2)+3) + 12*w^2)^3*(1+w) - (8*w^5*((1+3*w+w^2)+3)^3) = (4194304/22143375)*((w-0)^0*((3/4)-w)^11) + (11272192/4428675)*((w-0)^1*((3/4)-w)^10) + (153731072/4428675)*((w-0)^2*((3/4)-w)^9) + (391801856/1476225)*((w-0)^3*((3/4)-w)^8) + (13223845376/7381125)*((w-0)^4*((3/4)-w)^7) + (8212132352/1476225)*((w-0)^5*((3/4)-w)^6) + (70795534048/7381125)*((w-0)^6*((3/4)-w)^5) + (104274740996/7381125)*((w-0)^7*((3/4)-w)^4) + (143871359824/7381125)*((w-0)^8*((3/4)-w)^3) + (375662466376/22143375)*((w-0)^9*((3/4)-w)^2) + (145727767088/22143375)*((w-0)^10*((3/4)-w)^1) + (12393624052/22143375)*((w-0)^11*((3/4)-w)^0) := by ring
  have pos : 0 ≤ (4194304/22143375)*((w-0)^0*((3/4)-w)^11) + (11272192/4428675)*((w-0)^1*((3/4)-w)^10) + (153731072/4428675)*((w-0)^2*((3/4)-w)^9) + (391801856/1476225)*((w-0)^3*((3/4)-w)^8) + (13223845376/7381125)*((w-0)^4*((3/4)-w)^7) + (8212132352/1476225)*((w-0)^5*((3/4)-w)^6) + (70795534048/7381125)*((w-0)^6*((3/4)-w)^5) + (104274740996/7381125)*((w-0)^7*((3/4)-w)^4) + (143871359824/7381125)*((w-0)^8*((3/4)-w)^3) + (375662466376/22143375)*((w-0)^9*((3/4)-w)^2) + (145727767088/22143375)*((w-0)^10*((3/4)-w)^1) + (12393624052/22143375)*((w-0)^11*((3/4)-w)^0) := by positivity
  linarith

/-- geometric against arithmetic mean -/
theorem cu_g_large {w : ℝ} (h1 : (3/4) ≤ w) (h2 : w ≤ 1) :
    8*w^5*(3*(1+3*w+w^2)+16)^3 ≤ (1/20*(3*(1+3*w+w^2)+16) + 48*w^2)^3*(1+w) := by
  have u0 : 0 ≤ w-(3/4) := by linarith
  have v0 : 0 ≤ 1-w := by linarith
  have key : (1/20*(3*(1+3*w+w^2)+16) + 48*w^2)^3*(1+w) - (8*w^5*(3*(1+3*w+w^2)+16)^3) = (395349884092/125)*((w-(3/4))^0*(1-w)^11) + (5746802270784/125)*((w-(3/4))^1*(1-w)^10) + (37079158311896/125)*((w-(3/4))^2*(1-w)^9) + (140573133881904/125)*((w-(3/4))^3*(1-w)^8) + (69700774929972/25)*((w-(3/4))^4*(1-w)^7) + (593668240142768/125)*((w-(3/4))^5*(1-w)^6) + (709003552904448/125)*((w-(3/4))^6*(1-w)^5) + (593106737036544/125)*((w-(3/4))^7*(1-w)^4) + (339949055881216/125)*((w-(3/4))^8*(1-w)^3) + (126740069552128/125)*((w-(3/4))^9*(1-w)^2) + (27516291760128/125)*((w-(3/4))^10*(1-w)^1) + (2612300480512/125)*((w-(3/4))^11*(1-w)^0) := by ring
  have pos : 0 ≤ (395349884092/125)*((w-(3/4))^0*(1-w)^11) + (5746802270784/125)*((w-(3/4))^1*(1-w)^10) + (37079158311896/125)*((w-(3/4))^2*(1-w)^9) + (140573133881904/125)*((w-(3/4))^3*(1-w)^8) + (69700774929972/25)*((w-(3/4))^4*(1-w)^7) + (593668240142768/125)*((w-(3/4))^5*(1-w)^6) + (709003552904448/125)*((w-(3/4))^6*(1-w)^5) + (593106737036544/125)*((w-(3/4))^7*(1-w)^4) + (339949055881216/125)*((w-(3/4))^8*(1-w)^3) + (126740069552128/125)*((w-(3/4))^9*(1-w)^2) + (27516291760128/125)*((w-(3/4))^10*(1-w)^1) + (2612300480512/125)*((w-(3/4))^11*(1-w)^0) := by positivity
  linarith

/-- the third-kind series factor -/
theorem cu_s_mid {h : ℝ} (h1 : 1 ≤ h) (h2 : h ≤ 2) :
    (1 - h/5)^2*(1 + 3/7*(3/10)*h^2 + (2/25)/3*h^3 + (3/22*(3/10)^2 + 3/11*(13/250))*h^4 + 3/13*(3/125 + 33/1000)*h^5 + (3/10*(4/625) + 3/5*(3/10)*(13/250))*h^6) ≤ 118/400*(h + 3) := by
  have u0 : 0 ≤ h-1 := by linarith
  have v0 : 0 ≤ 2-h := by linarith
  have key : 118/400*(h + 3) - ((1 - h/5)^2*(1 + 3/7*(3/10)*h^2 + (2/25)/3*h^3 + (3/22*(3/10)^2 + 3/11*(13/250))*h^4 + 3/13*(3/125 + 33/1000)*h^5 + (3/10*(4/625) + 3/5*(3/10)*(13/250))*h^6)) = (191478341/469218750)*((h-1)^0*(2-h)^8) + (2237666863/625625000)*((h-1)^1*(2-h)^7) + (8332875251/625625000)*((h-1)^2*(2-h)^6) + (615234573/22343750)*((h-1)^3*(2-h)^5) + (308048153/8937500)*((h-1)^4*(2-h)^4) + (1511975911/56875000)*((h-1)^5*(2-h)^3) + (2082309863/170625000)*((h-1)^6*(2-h)^2) + (1871964377/625625000)*((h-1)^7*(2-h)^1) + (180965443/625625000)*((h-1)^8*(2-h)^0) := by ring
  have pos : 0 ≤ (191478341/469218750)*((h-1)^0*(2-h)^8) + (2237666863/625625000)*((h-1)^1*(2-h)^7) + (8332875251/625625000)*((h-1)^2*(2-h)^6) + (615234573/22343750)*((h-1)^3*(2-h)^5) + (308048153/8937500)*((h-1)^4*(2-h)^4) + (1511975911/56875000)*((h-1)^5*(2-h)^3) + (2082309863/170625000)*((h-1)^6*(2-h)^2) + (1871964377/625625000)*((h-1)^7*(2-h)^1) + (180965443/625625000)*((h-1)^8*(2-h)^0) := by positivity
  linarith

/-- the third-kind series factor, strongly skewed arguments -/
theorem cu_s_large {h : ℝ} (h1 : 2 ≤ h) (h2 : h ≤ 5) :
    (1 - h/5)^2*(1 + 3/7*(1/5)*h^2 + (0)/3*h^3 + (3/22*(1/5)^2 + 3/11*(13/250))*h^4 + 3/13*(0 + 0)*h^5 + (3/10*(4/625) + 3/5*(1/5)*(13/250))*h^6) ≤ 118/400*(h + 3) := by
  rcases le_total h (7/2) with hm | hm
  · have u0 : 0 ≤ h-2 := by linarith
    have v0 : 0 ≤ (7/2)-h := by linarith
    have key : 118/400*(h + 3) - ((1 - h/5)^2*(1 + 3/7*(1/5)*h^2 + (0)/3*h^3 + (3/22*(1/5)^2 + 3/11*(13/250))*h^4 + 3/13*(0 + 0)*h^5 + (3/10*(4/625) + 3/5*(1/5)*(13/250))*h^6)) = (1063307744/39468515625)*((h-2)^0*((7/2)-h)^8) + (8285552656/39468515625)*((h-2)^1*((7/2)-h)^7) + (2445187408/3588046875)*((h-2)^2*((7/2)-h)^6) + (46804211728/39468515625)*((h-2)^3*((7/2)-h)^5) + (848201936/717609375)*((h-2)^4*((7/2)-h)^4) + (26387226352/39468515625)*((h-2)^5*((7/2)-h)^3) + (8068622678/39468515625)*((h-2)^6*((7/2)-h)^2) + (199623682/5638359375)*((h-2)^7*((7/2)-h)^1) + (51821599/11276718750)*((h-2)^8*((7/2)-h)^0) := by ring
    have pos : 0 ≤ (1063307744/39468515625)*((h-2)^0*((7/2)-h)^8) + (8285552656/39468515625)*((h-2)^1*((7/2)-h)^7) + (2445187408/3588046875)*((h-2)^2*((7/2)-h)^6) + (46804211728/39468515625)*((h-2)^3*((7/2)-h)^5) + (848201936/717609375)*((h-2)^4*((7/2)-h)^4) + (26387226352/39468515625)*((h-2)^5*((7/2)-h)^3) + (8068622678/39468515625)*((h-2)^6*((7/2)-h)^2) + (199623682/5638359375)*((h-2)^7*((7/2)-h)^1) + (51821599/11276718750)*((h-2)^8*((7/2)-h)^0) := by positivity
    linarith
  · have u0 : 0 ≤ h-(7/2) := by linarith
    have v0 : 0 ≤ 5-h := by linarith
    have key : 118/400*(h + 3) - ((1 - h/5)^2*(1 + 3/7*(1/5)*h^2 + (0)/3*h^3 + (3/22*(1/5)^2 + 3/11*(13/250))*h^4 + 3/13*(0 + 0)*h^5 + (3/10*(4/625) + 3/5*(1/5)*(13/250))*h^6)) = (51821599/11276718750)*((h-(7/2))^0*(5-h)^8) + (42989822/1127671875)*((h-(7/2))^1*(5-h)^7) + (352782746/1578740625)*((h-(7/2))^2*(5-h)^6) + (274510304/315748125)*((h-(7/2))^3*(5-h)^5) + (126039128/63149625)*((h-(7/2))^4*(5-h)^4) + (33406544/12629925)*((h-(7/2))^5*(5-h)^3) + (24699184/12629925)*((h-(7/2))^6*(5-h)^2) + (4720/6561)*((h-(7/2))^7*(5-h)^1) + (15104/164025)*((h-(7/2))^8*(5-h)^0) := by ring
    have pos : 0 ≤ (51821599/11276718750)*((h-(7/2))^0*(5-h)^8) + (42989822/1127671875)*((h-(7/2))^1*(5-h)^7) + (352782746/1578740625)*((h-(7/2))^2*(5-h)^6) + (274510304/315748125)*((h-(7/2))^3*(5-h)^5) + (126039128/63149625)*((h-(7/2))^4*(5-h)^4) + (33406544/12629925)*((h-(7/2))^5*(5-h)^3) + (24699184/12629925)*((h-(7/2))^6*(5-h)^2) + (4720/6561)*((h-(7/2))^7*(5-h)^1) + (15104/164025)*((h-(7/2))^8*(5-h)^0) := by positivity
    linarith

/-! third kind: power sums of the scaled deviations, for `0 ≤ p ≤ y ≤ 1` -/
theorem cj_t1 {y p : ℝ} (hp : 0 ≤ p) (hpy : p ≤ y) (hy : y ≤ 1) : ((((1 + y + 2*p)/5))^2 + ((1 - 4*y + 2*p)/5)^2 + (-((4 - y - 2*p)/5))^2 + 2*((1 + y - 3*p)/5)^2)/4 ≤ 3/10 := by
  have u0 : 0 ≤ 1-y := by linarith
  have v0 : 0 ≤ y-p := by linarith
  have key : 3/10 - (((((1 + y + 2*p)/5))^2 + ((1 - 4*y + 2*p)/5)^2 + (-((4 - y - 2*p)/5))^2 + 2*((1 + y - 3*p)/5)^2)/4) = 1/10*((1-y)^0*(y-p)^0*p^2) + 2/5*((1-y)^0*(y-p)^1*p^1) + 1/2*((1-y)^1*(y-p)^0*p^1) + 3/10*((1-y)^1*(y-p)^1*p^0) + 1/10*((1-y)^2*(y-p)^0*p^0) := by ring
  have pos : 0 ≤ 1/10*((1-y)^0*(y-p)^0*p^2) + 2/5*((1-y)^0*(y-p)^1*p^1) + 1/2*((1-y)^1*(y-p)^0*p^1) + 3/10*((1-y)^1*(y-p)^1*p^0) + 1/10*((1-y)^2*(y-p)^0*p^0) := by positivity
  linarith

theorem cj_t2 {y p : ℝ} (hp : 0 ≤ p) (hpy : p ≤ y) (hy : y ≤ 1) : ((((1 + y + 2*p)/5))^3 + ((1 - 4*y + 2*p)/5)^3 + (-((4 - y - 2*p)/5))^3 + 2*((1 + y - 3*p)/5)^3)/6 ≤ 2/25 := by
  have u0 : 0 ≤ 1-y := by linarith
  have v0 : 0 ≤ y-p := by linarith
  have key : 2/25 - (((((1 + y + 2*p)/5))^3 + ((1 - 4*y + 2*p)/5)^3 + (-((4 - y - 2*p)/5))^3 + 2*((1 + y - 3*p)/5)^3)/6) = 3/25*((1-y)^0*(y-p)^1*p^2) + 7/25*((1-y)^0*(y-p)^2*p^1) + 3/25*((1-y)^0*(y-p)^3*p^0) + 9/50*((1-y)^1*(y-p)^0*p^2) + 13/25*((1-y)^1*(y-p)^1*p^1) + 3/10*((1-y)^1*(y-p)^2*p^0) + 3/10*((1-y)^2*(y-p)^0*p^1) + 21/50*((1-y)^2*(y-p)^1*p^0) + 4/25*((1-y)^3*(y-p)^0*p^0) := by ring
  have pos : 0 ≤ 3/25*((1-y)^0*(y-p)^1*p^2) + 7/25*((1-y)^0*(y-p)^2*p^1) + 3/25*((1-y)^0*(y-p)^3*p^0) + 9/50*((1-y)^1*(y-p)^0*p^2) + 13/25*((1-y)^1*(y-p)^1*p^1) + 3/10*((1-y)^1*(y-p)^2*p^0) + 3/10*((1-y)^2*(y-p)^0*p^1) + 21/50*((1-y)^2*(y-p)^1*p^0) + 4/25*((1-y)^3*(y-p)^0*p^0) := by positivity
  linarith

theorem cj_t2' {y p : ℝ} (hp : 0 ≤ p) (hpy : p ≤ y) (hy : y ≤ 1) : -(((((1 + y + 2*p)/5))^3 + ((1 - 4*y + 2*p)/5)^3 + (-((4 - y - 2*p)/5))^3 + 2*((1 + y - 3*p)/5)^3)/6) ≤ 2/25 := by
  have u0 : 0 ≤ 1-y := by linarith
  have v0 : 0 ≤ y-p := by linarith
  have key : 2/25 - (-(((((1 + y + 2*p)/5))^3 + ((1 - 4*y + 2*p)/5)^3 + (-((4 - y - 2*p)/5))^3 + 2*((1 + y - 3*p)/5)^3)/6)) = 4/25*((1-y)^0*(y-p)^0*p^3) + 9/25*((1-y)^0*(y-p)^1*p^2) + 1/5*((1-y)^0*(y-p)^2*p^1) + 1/25*((1-y)^0*(y-p)^3*p^0) + 3/10*((1-y)^1*(y-p)^0*p^2) + 11/25*((1-y)^1*(y-p)^1*p^1) + 9/50*((1-y)^1*(y-p)^2*p^0) + 9/50*((1-y)^2*(y-p)^0*p^1) + 3/50*((1-y)^2*(y-p)^1*p^0) := by ring
  have pos : 0 ≤ 4/25*((1-y)^0*(y-p)^0*p^3) + 9/25*((1-y)^0*(y-p)^1*p^2) + 1/5*((1-y)^0*(y-p)^2*p^1) + 1/25*((1-y)^0*(y-p)^3*p^0) + 3/10*((1-y)^1*(y-p)^0*p^2) + 11/25*((1-y)^1*(y-p)^1*p^1) + 9/50*((1-y)^1*(y-p)^2*p^0) + 9/50*((1-y)^2*(y-p)^0*p^1) + 3/50*((1-y)^2*(y-p)^1*p^0) := by positivity
  linarith

theorem cj_t3 {y p : ℝ} (hp : 0 ≤ p) (hpy : p ≤ y) (hy : y ≤ 1) : ((((1 + y + 2*p)/5))^4 + ((1 - 4*y + 2*p)/5)^4 + (-((4 - y - 2*p)/5))^4 + 2*((1 + y - 3*p)/5)^4)/8 ≤ 13/250 := by
  have u0 : 0 ≤ 1-y := by linarith
  have v0 : 0 ≤ y-p := by linarith
  have key : 13/250 - (((((1 + y + 2*p)/5))^4 + ((1 - 4*y + 2*p)/5)^4 + (-((4 - y - 2*p)/5))^4 + 2*((1 + y - 3*p)/5)^4)/8) = 13/125*((1-y)^0*(y-p)^1*p^3) + 51/250*((1-y)^0*(y-p)^2*p^2) + 19/125*((1-y)^0*(y-p)^3*p^1) + 1/100*((1-y)^0*(y-p)^4*p^0) + 39/250*((1-y)^1*(y-p)^0*p^3) + 129/250*((1-y)^1*(y-p)^1*p^2) + 27/50*((1-y)^1*(y-p)^2*p^1) + 31/250*((1-y)^1*(y-p)^3*p^0) + 27/100*((1-y)^2*(y-p)^0*p^2) + 123/250*((1-y)^2*(y-p)^1*p^1) + 57/500*((1-y)^2*(y-p)^2*p^0) + 39/250*((1-y)^3*(y-p)^0*p^1) + 13/250*((1-y)^3*(y-p)^1*p^0) := by ring
  have pos : 0 ≤ 13/125*((1-y)^0*(y-p)^1*p^3) + 51/250*((1-y)^0*(y-p)^2*p^2) + 19/125*((1-y)^0*(y-p)^3*p^1) + 1/100*((1-y)^0*(y-p)^4*p^0) + 39/250*((1-y)^1*(y-p)^0*p^3) + 129/250*((1-y)^1*(y-p)^1*p^2) + 27/50*((1-y)^1*(y-p)^2*p^1) + 31/250*((1-y)^1*(y-p)^3*p^0) + 27/100*((1-y)^2*(y-p)^0*p^2) + 123/250*((1-y)^2*(y-p)^1*p^1) + 57/500*((1-y)^2*(y-p)^2*p^0) + 39/250*((1-y)^3*(y-p)^0*p^1) + 13/250*((1-y)^3*(y-p)^1*p^0) := by positivity
  linarith

theorem cj_t4 {y p : ℝ} (hp : 0 ≤ p) (hpy : p ≤ y) (hy : y ≤ 1) : ((((1 + y + 2*p)/5))^5 + ((1 - 4*y + 2*p)/5)^5 + (-((4 - y - 2*p)/5))^5 + 2*((1 + y - 3*p)/5)^5)/10 ≤ 33/1000 := by
  have u0 : 0 ≤ 1-y := by linarith
  have v0 : 0 ≤ y-p := by linarith
  have key : 33/1000 - (((((1 + y + 2*p)/5))^5 + ((1 - 4*y + 2*p)/5)^5 + (-((4 - y - 2*p)/5))^5 + 2*((1 + y - 3*p)/5)^5)/10) = 9/25000*((1-y)^0*(y-p)^0*p^5) + 417/5000*((1-y)^0*(y-p)^1*p^4) + 641/2500*((1-y)^0*(y-p)^2*p^3) + 753/2500*((1-y)^0*(y-p)^3*p^2) + 929/5000*((1-y)^0*(y-p)^4*p^1) + 1137/25000*((1-y)^0*(y-p)^5*p^0) + 621/5000*((1-y)^1*(y-p)^0*p^4) + 733/1250*((1-y)^1*(y-p)^1*p^3) + 2367/2500*((1-y)^1*(y-p)^2*p^2) + 877/1250*((1-y)^1*(y-p)^3*p^1) + 981/5000*((1-y)^1*(y-p)^4*p^0) + 789/2500*((1-y)^2*(y-p)^0*p^3) + 2511/2500*((1-y)^2*(y-p)^1*p^2) + 2823/2500*((1-y)^2*(y-p)^2*p^1) + 1173/2500*((1-y)^2*(y-p)^3*p^0) + 861/2500*((1-y)^3*(y-p)^0*p^2) + 973/1250*((1-y)^3*(y-p)^1*p^1) + 1269/2500*((1-y)^3*(y-p)^2*p^0) + 1029/5000*((1-y)^4*(y-p)^0*p^1) + 1437/5000*((1-y)^4*(y-p)^1*p^0) + 1641/25000*((1-y)^5*(y-p)^0*p^0) := by ring
  have pos : 0 ≤ 9/25000*((1-y)^0*(y-p)^0*p^5) + 417/5000*((1-y)^0*(y-p)^1*p^4) + 641/2500*((1-y)^0*(y-p)^2*p^3) + 753/2500*((1-y)^0*(y-p)^3*p^2) + 929/5000*((1-y)^0*(y-p)^4*p^1) + 1137/25000*((1-y)^0*(y-p)^5*p^0) + 621/5000*((1-y)^1*(y-p)^0*p^4) + 733/1250*((1-y)^1*(y-p)^1*p^3) + 2367/2500*((1-y)^1*(y-p)^2*p^2) + 877/1250*((1-y)^1*(y-p)^3*p^1) + 981/5000*((1-y)^1*(y-p)^4*p^0) + 789/2500*((1-y)^2*(y-p)^0*p^3) + 2511/2500*((1-y)^2*(y-p)^1*p^2) + 2823/2500*((1-y)^2*(y-p)^2*p^1) + 1173/2500*((1-y)^2*(y-p)^3*p^0) + 861/2500*((1-y)^3*(y-p)^0*p^2) + 973/1250*((1-y)^3*(y-p)^1*p^1) + 1269/2500*((1-y)^3*(y-p)^2*p^0) + 1029/5000*((1-y)^4*(y-p)^0*p^1) + 1437/5000*((1-y)^4*(y-p)^1*p^0) + 1641/25000*((1-y)^5*(y-p)^0*p^0) := by positivity
  linarith

end Wiz
