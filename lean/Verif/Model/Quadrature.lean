import Mathlib.Data.Rat.Defs
import Mathlib.Data.Real.Basic
/-!
# Quadrature rules

`/repo/src/serac/numerics/functional/polynomials.hpp` 41-261 (`GaussLegendreNodes`), 263-367 (`GaussLegendreWeights`); `quadrature.hpp` 43-79
(`GaussQuadratureRule`); `geometry.hpp` 24-44 (`num_quadrature_points`); `functional.hpp` 193 (`Q`); `detail/qoi.inl` 33-74 (the weighted sums).

The tables are the decimal literals of the source as rational numbers; the rounding of a literal to `double` and of the sums is not modelled.
`none` stands for a value of `n` for which the templates return nothing (the instantiation does not compile).
-/

namespace Serac.Quadrature

/-- `GaussLegendreNodes<n, SEGMENT>()`. -/
def segmentNodes : ℕ → Option (List ℚ)
  | 1 => some [0.50000000000000000]
  | 2 => some [0.2113248654051871, 0.7886751345948129]
  | 3 => some [0.1127016653792583, 0.500000000000000, 0.887298334620742]
  | 4 => some [0.0694318442029737, 0.330009478207572, 0.669990521792428, 0.930568155797026]
  | 5 => some [0.0469100770306680, 0.230765344947158, 0.500000000000000, 0.769234655052842, 0.953089922969332]
  | 6 => some [0.0337652428984240, 0.169395306766868, 0.380690406958402, 0.619309593041598, 0.830604693233132, 0.966234757101576]
  | 7 => some [0.0254460438286207, 0.129234407200303, 0.297077424311301, 0.500000000000000, 0.702922575688699, 0.87076559279970, 0.97455395617138]
  | 8 => some [0.0198550717512319, 0.101666761293187, 0.237233795041836, 0.408282678752175, 0.591717321247825, 0.76276620495816, 0.89833323870681, 0.98014492824877]
  | _ => none

/-- `GaussLegendreWeights<n, SEGMENT>()`. -/
def segmentWeights : ℕ → Option (List ℚ)
  | 1 => some [1.000000000000000]
  | 2 => some [0.500000000000000, 0.500000000000000]
  | 3 => some [0.277777777777778, 0.444444444444444, 0.277777777777778]
  | 4 => some [0.173927422568727, 0.326072577431273, 0.326072577431273, 0.173927422568727]
  | 5 => some [0.118463442528095, 0.239314335249683, 0.284444444444444, 0.239314335249683, 0.118463442528095]
  | 6 => some [0.085662246189585, 0.180380786524069, 0.233956967286346, 0.233956967286346, 0.180380786524069, 0.085662246189585]
  | 7 => some [0.0647424830844348, 0.139852695744638, 0.190915025252559, 0.208979591836735, 0.190915025252559, 0.139852695744638, 0.0647424830844348]
  | 8 => some [0.0506142681451881, 0.111190517226687, 0.156853322938944, 0.181341891689181, 0.181341891689181, 0.156853322938944, 0.111190517226687, 0.0506142681451881]
  | _ => none

/-- `GaussLegendreNodes<n, TRIANGLE>()`. -/
def triangleNodes : ℕ → Option (List (ℚ × ℚ))
  | 1 => some [(0.333333333333333, 0.333333333333333)]
  | 2 => some [(0.166666666666667, 0.166666666666667), (0.166666666666667, 0.666666666666667),
      (0.666666666666667, 0.166666666666667)]
  | 3 => some [(0.09157621350978, 0.09157621350978), (0.09157621350978, 0.81684757298044),
      (0.81684757298044, 0.09157621350978), (0.108103018168071, 0.445948490915964),
      (0.445948490915964, 0.108103018168071), (0.445948490915964, 0.445948490915964)]
  | 4 => some [(0.055564052669793, 0.055564052669793), (0.055564052669793, 0.888871894660413),
      (0.888871894660413, 0.055564052669793), (0.070255540518384, 0.634210747745723),
      (0.634210747745723, 0.070255540518384), (0.634210747745723, 0.295533711735893),
      (0.070255540518384, 0.295533711735893), (0.295533711735893, 0.070255540518384),
      (0.295533711735893, 0.634210747745723), (0.333333333333333, 0.333333333333333)]
  | 5 => some [(0.035870877695734000590, 0.035870877695734000590), (0.035870877695734000590, 0.92825824460853301190),
      (0.92825824460853301190, 0.035870877695734000590), (0.24172939576796700911, 0.24172939576796700911),
      (0.24172939576796700911, 0.51654120846406603729), (0.51654120846406603729, 0.24172939576796700911),
      (0.051382424445842997396, 0.47430878777707902172), (0.47430878777707902172, 0.051382424445842997396),
      (0.47430878777707902172, 0.47430878777707902172), (0.047312487011716003460, 0.75118363110648400660),
      (0.75118363110648400660, 0.047312487011716003460), (0.75118363110648400660, 0.20150388188179998994),
      (0.047312487011716003460, 0.20150388188179998994), (0.20150388188179998994, 0.047312487011716003460),
      (0.20150388188179998994, 0.75118363110648400660)]
  | _ => none

/-- `GaussLegendreWeights<n, TRIANGLE>()`. -/
def triangleWeights : ℕ → Option (List ℚ)
  | 1 => some [0.5]
  | 2 => some [0.166666666666667, 0.166666666666667, 0.166666666666667]
  | 3 => some [0.0549758718276665, 0.0549758718276665, 0.0549758718276665, 0.111690794839, 0.111690794839,
      0.111690794839]
  | 4 => some [0.0209777564983245, 0.0209777564983245, 0.0209777564983245, 0.0560492060354435, 0.0560492060354435,
      0.0560492060354435, 0.0560492060354435, 0.0560492060354435, 0.0560492060354435, 0.100771494292365]
  | 5 => some [0.0089577275061514995830, 0.0089577275061514995830, 0.0089577275061514995830, 0.063856097940632502996, 0.063856097940632502996,
      0.063856097940632502996, 0.038103031192767498891, 0.038103031192767498891, 0.038103031192767498891, 0.027874905013557500777,
      0.027874905013557500777, 0.027874905013557500777, 0.027874905013557500777, 0.027874905013557500777, 0.027874905013557500777]
  | _ => none

/-- `GaussLegendreNodes<n, TETRAHEDRON>()`. -/
def tetrahedronNodes : ℕ → Option (List (ℚ × ℚ × ℚ))
  | 1 => some [(0.25, 0.25, 0.25)]
  | 2 => some [(0.585410196624967936, 0.138196601125011008, 0.138196601125011008), (0.138196601125011008, 0.585410196624967936, 0.138196601125011008),
      (0.138196601125011008, 0.138196601125011008, 0.585410196624967936), (0.138196601125011008, 0.138196601125011008, 0.138196601125011008)]
  | 3 => some [(0.77849529482132992, 0.0738349017262233984, 0.0738349017262233984), (0.0738349017262233984, 0.77849529482132992, 0.0738349017262233984),
      (0.0738349017262233984, 0.0738349017262233984, 0.77849529482132992), (0.0738349017262233984, 0.0738349017262233984, 0.0738349017262233984),
      (0.406244343884051008, 0.406244343884051008, 0.0937556561159491072), (0.406244343884051008, 0.0937556561159491072, 0.406244343884051008),
      (0.406244343884051008, 0.0937556561159491072, 0.0937556561159491072), (0.0937556561159491072, 0.406244343884051008, 0.406244343884051008),
      (0.0937556561159491072, 0.406244343884051008, 0.0937556561159491072), (0.0937556561159491072, 0.0937556561159491072, 0.406244343884051008)]
  | 4 => some [(0.902942215818267904, 0.0323525947272438976, 0.0323525947272438976), (0.0323525947272438976, 0.902942215818267904, 0.0323525947272438976),
      (0.0323525947272438976, 0.0323525947272438976, 0.902942215818267904), (0.0323525947272438976, 0.0323525947272438976, 0.0323525947272438976),
      (0.262682583887778976, 0.616596533061936896, 0.0603604415251420928), (0.616596533061936896, 0.262682583887778976, 0.0603604415251420928),
      (0.262682583887778976, 0.0603604415251420928, 0.616596533061936896), (0.616596533061936896, 0.0603604415251420928, 0.262682583887778976),
      (0.262682583887778976, 0.0603604415251420928, 0.0603604415251420928), (0.616596533061936896, 0.0603604415251420928, 0.0603604415251420928),
      (0.0603604415251420928, 0.262682583887778976, 0.616596533061936896), (0.0603604415251420928, 0.616596533061936896, 0.262682583887778976),
      (0.0603604415251420928, 0.262682583887778976, 0.0603604415251420928), (0.0603604415251420928, 0.616596533061936896, 0.0603604415251420928),
      (0.0603604415251420928, 0.0603604415251420928, 0.262682583887778976), (0.0603604415251420928, 0.0603604415251420928, 0.616596533061936896),
      (0.309769304272861952, 0.309769304272861952, 0.309769304272861952), (0.309769304272861952, 0.309769304272861952, 0.0706920871814129024),
      (0.309769304272861952, 0.0706920871814129024, 0.309769304272861952), (0.0706920871814129024, 0.309769304272861952, 0.309769304272861952)]
  | 5 => some [(0.91978967333688, 0.0267367755543734976, 0.0267367755543734976), (0.0267367755543734976, 0.91978967333688, 0.0267367755543734976),
      (0.0267367755543734976, 0.0267367755543734976, 0.91978967333688), (0.0267367755543734976, 0.0267367755543734976, 0.0267367755543734976),
      (0.174035630246894016, 0.747759888481809024, 0.0391022406356488), (0.747759888481809024, 0.174035630246894016, 0.0391022406356488),
      (0.174035630246894016, 0.0391022406356488, 0.747759888481809024), (0.747759888481809024, 0.0391022406356488, 0.174035630246894016),
      (0.174035630246894016, 0.0391022406356488, 0.0391022406356488), (0.747759888481809024, 0.0391022406356488, 0.0391022406356488),
      (0.0391022406356488, 0.174035630246894016, 0.747759888481809024), (0.0391022406356488, 0.747759888481809024, 0.174035630246894016),
      (0.0391022406356488, 0.174035630246894016, 0.0391022406356488), (0.0391022406356488, 0.747759888481809024, 0.0391022406356488),
      (0.0391022406356488, 0.0391022406356488, 0.174035630246894016), (0.0391022406356488, 0.0391022406356488, 0.747759888481809024),
      (0.454754599984483008, 0.454754599984483008, 0.0452454000155171968), (0.454754599984483008, 0.0452454000155171968, 0.454754599984483008),
      (0.454754599984483008, 0.0452454000155171968, 0.0452454000155171968), (0.0452454000155171968, 0.454754599984483008, 0.454754599984483008),
      (0.0452454000155171968, 0.454754599984483008, 0.0452454000155171968), (0.0452454000155171968, 0.0452454000155171968, 0.454754599984483008),
      (0.503118645014598016, 0.223201037962315008, 0.223201037962315008), (0.223201037962315008, 0.503118645014598016, 0.223201037962315008),
      (0.223201037962315008, 0.223201037962315008, 0.503118645014598016), (0.503118645014598016, 0.223201037962315008, 0.050479279060772),
      (0.223201037962315008, 0.503118645014598016, 0.050479279060772), (0.223201037962315008, 0.223201037962315008, 0.050479279060772),
      (0.503118645014598016, 0.050479279060772, 0.223201037962315008), (0.223201037962315008, 0.050479279060772, 0.503118645014598016),
      (0.223201037962315008, 0.050479279060772, 0.223201037962315008), (0.050479279060772, 0.503118645014598016, 0.223201037962315008),
      (0.050479279060772, 0.223201037962315008, 0.503118645014598016), (0.050479279060772, 0.223201037962315008, 0.223201037962315008),
      (0.25, 0.25, 0.25)]
  | 6 => some [(0.955143804540822016, 0.0149520651530592, 0.0149520651530592), (0.0149520651530592, 0.955143804540822016, 0.0149520651530592),
      (0.0149520651530592, 0.0149520651530592, 0.955143804540822016), (0.0149520651530592, 0.0149520651530592, 0.0149520651530592),
      (0.779976008441539968, 0.151831949165936992, 0.0340960211962614976), (0.151831949165936992, 0.779976008441539968, 0.0340960211962614976),
      (0.779976008441539968, 0.0340960211962614976, 0.151831949165936992), (0.151831949165936992, 0.0340960211962614976, 0.779976008441539968),
      (0.779976008441539968, 0.0340960211962614976, 0.0340960211962614976), (0.151831949165936992, 0.0340960211962614976, 0.0340960211962614976),
      (0.0340960211962614976, 0.779976008441539968, 0.151831949165936992), (0.0340960211962614976, 0.151831949165936992, 0.779976008441539968),
      (0.0340960211962614976, 0.779976008441539968, 0.0340960211962614976), (0.0340960211962614976, 0.151831949165936992, 0.0340960211962614976),
      (0.0340960211962614976, 0.0340960211962614976, 0.779976008441539968), (0.0340960211962614976, 0.0340960211962614976, 0.151831949165936992),
      (0.354934056063979008, 0.552655643106017024, 0.0462051504150017024), (0.552655643106017024, 0.354934056063979008, 0.0462051504150017024),
      (0.354934056063979008, 0.0462051504150017024, 0.552655643106017024), (0.552655643106017024, 0.0462051504150017024, 0.354934056063979008),
      (0.354934056063979008, 0.0462051504150017024, 0.0462051504150017024), (0.552655643106017024, 0.0462051504150017024, 0.0462051504150017024),
      (0.0462051504150017024, 0.354934056063979008, 0.552655643106017024), (0.0462051504150017024, 0.552655643106017024, 0.354934056063979008),
      (0.0462051504150017024, 0.354934056063979008, 0.0462051504150017024), (0.0462051504150017024, 0.552655643106017024, 0.0462051504150017024),
      (0.0462051504150017024, 0.0462051504150017024, 0.354934056063979008), (0.0462051504150017024, 0.0462051504150017024, 0.552655643106017024),
      (0.538104322888002048, 0.228190461068760992, 0.228190461068760992), (0.228190461068760992, 0.538104322888002048, 0.228190461068760992),
      (0.228190461068760992, 0.228190461068760992, 0.538104322888002048), (0.538104322888002048, 0.228190461068760992, 0.00551475497447749952),
      (0.228190461068760992, 0.538104322888002048, 0.00551475497447749952), (0.228190461068760992, 0.228190461068760992, 0.00551475497447749952),
      (0.538104322888002048, 0.00551475497447749952, 0.228190461068760992), (0.228190461068760992, 0.00551475497447749952, 0.538104322888002048),
      (0.228190461068760992, 0.00551475497447749952, 0.228190461068760992), (0.00551475497447749952, 0.538104322888002048, 0.228190461068760992),
      (0.00551475497447749952, 0.228190461068760992, 0.538104322888002048), (0.00551475497447749952, 0.228190461068760992, 0.228190461068760992),
      (0.19618375957456, 0.352305260087993984, 0.352305260087993984), (0.352305260087993984, 0.19618375957456, 0.352305260087993984),
      (0.352305260087993984, 0.352305260087993984, 0.19618375957456), (0.19618375957456, 0.352305260087993984, 0.0992057202494530048),
      (0.352305260087993984, 0.19618375957456, 0.0992057202494530048), (0.352305260087993984, 0.352305260087993984, 0.0992057202494530048),
      (0.19618375957456, 0.0992057202494530048, 0.352305260087993984), (0.352305260087993984, 0.0992057202494530048, 0.19618375957456),
      (0.352305260087993984, 0.0992057202494530048, 0.352305260087993984), (0.0992057202494530048, 0.19618375957456, 0.352305260087993984),
      (0.0992057202494530048, 0.352305260087993984, 0.19618375957456), (0.0992057202494530048, 0.352305260087993984, 0.352305260087993984),
      (0.59656499562101696, 0.134478334792994016, 0.134478334792994016), (0.134478334792994016, 0.59656499562101696, 0.134478334792994016),
      (0.134478334792994016, 0.134478334792994016, 0.59656499562101696), (0.134478334792994016, 0.134478334792994016, 0.134478334792994016)]
  | _ => none

/-- `GaussLegendreWeights<n, TETRAHEDRON>()`. -/
def tetrahedronWeights : ℕ → Option (List ℚ)
  | 1 => some [0.166666666666666656]
  | 2 => some [0.0416666666666666624, 0.0416666666666666624, 0.0416666666666666624, 0.0416666666666666624]
  | 3 => some [0.00793885580720148224, 0.00793885580720148224, 0.00793885580720148224, 0.00793885580720148224, 0.022485207239643504,
      0.022485207239643504, 0.022485207239643504, 0.022485207239643504, 0.022485207239643504, 0.022485207239643504]
  | 4 => some [0.00117784579907825008, 0.00117784579907825008, 0.00117784579907825008, 0.00117784579907825008, 0.0078331114953146176,
      0.0078331114953146176, 0.0078331114953146176, 0.0078331114953146176, 0.0078331114953146176, 0.0078331114953146176,
      0.0078331114953146176, 0.0078331114953146176, 0.0078331114953146176, 0.0078331114953146176, 0.0078331114953146176,
      0.0078331114953146176, 0.0169894863816446688, 0.0169894863816446688, 0.0169894863816446688, 0.0169894863816446688]
  | 5 => some [0.000365007732756466624, 0.000365007732756466624, 0.000365007732756466624, 0.000365007732756466624, 0.00238992783629441664,
      0.00238992783629441664, 0.00238992783629441664, 0.00238992783629441664, 0.00238992783629441664, 0.00238992783629441664,
      0.00238992783629441664, 0.00238992783629441664, 0.00238992783629441664, 0.00238992783629441664, 0.00238992783629441664,
      0.00238992783629441664, 0.0041717565947791008, 0.0041717565947791008, 0.0041717565947791008, 0.0041717565947791008,
      0.0041717565947791008, 0.0041717565947791008, 0.00799732221762589952, 0.00799732221762589952, 0.00799732221762589952,
      0.00799732221762589952, 0.00799732221762589952, 0.00799732221762589952, 0.00799732221762589952, 0.00799732221762589952,
      0.00799732221762589952, 0.00799732221762589952, 0.00799732221762589952, 0.00799732221762589952, 0.0155290955199223328]
  | 6 => some [0.000172885205602333344, 0.000172885205602333344, 0.000172885205602333344, 0.000172885205602333344, 0.00160027742332466656,
      0.00160027742332466656, 0.00160027742332466656, 0.00160027742332466656, 0.00160027742332466656, 0.00160027742332466656,
      0.00160027742332466656, 0.00160027742332466656, 0.00160027742332466656, 0.00160027742332466656, 0.00160027742332466656,
      0.00160027742332466656, 0.00274156627997053312, 0.00274156627997053312, 0.00274156627997053312, 0.00274156627997053312,
      0.00274156627997053312, 0.00274156627997053312, 0.00274156627997053312, 0.00274156627997053312, 0.00274156627997053312,
      0.00274156627997053312, 0.00274156627997053312, 0.00274156627997053312, 0.00256246277522183328, 0.00256246277522183328,
      0.00256246277522183328, 0.00256246277522183328, 0.00256246277522183328, 0.00256246277522183328, 0.00256246277522183328,
      0.00256246277522183328, 0.00256246277522183328, 0.00256246277522183328, 0.00256246277522183328, 0.00256246277522183328,
      0.00489200197292049984, 0.00489200197292049984, 0.00489200197292049984, 0.00489200197292049984, 0.00489200197292049984,
      0.00489200197292049984, 0.00489200197292049984, 0.00489200197292049984, 0.00489200197292049984, 0.00489200197292049984,
      0.00489200197292049984, 0.00489200197292049984, 0.00610485610675179904, 0.00610485610675179904, 0.00610485610675179904,
      0.00610485610675179904]
  | _ => none

/-- A rule: points with their weights, in the order of the tables. -/
abbrev Rule (P : Type) := List (P × ℚ)

/-- Nodes and weights with the same `n`. -/
def pair {P : Type} (ns : Option (List P)) (ws : Option (List ℚ)) : Option (Rule P) :=
  ns.bind fun n => ws.map fun w => n.zip w

def segment (n : ℕ) : Option (Rule ℚ) := pair (segmentNodes n) (segmentWeights n)
def triangle (n : ℕ) : Option (Rule (ℚ × ℚ)) := pair (triangleNodes n) (triangleWeights n)
def tetrahedron (n : ℕ) : Option (Rule (ℚ × ℚ × ℚ)) := pair (tetrahedronNodes n) (tetrahedronWeights n)

/-- `GaussQuadratureRule<SQUARE, n>()`: `for j, for i { points[count] = {x[i], x[j]}; weights[count++] = w[i] * w[j]; }`. -/
def square (n : ℕ) : Option (Rule (ℚ × ℚ)) :=
  (segment n).map fun r => r.flatMap fun pj => r.map fun pi => ((pi.1, pj.1), pi.2 * pj.2)

/-- `GaussQuadratureRule<CUBE, n>()`. -/
def cube (n : ℕ) : Option (Rule (ℚ × ℚ × ℚ)) :=
  (segment n).map fun r => r.flatMap fun pk => r.flatMap fun pj => r.map fun pi =>
    ((pi.1, pj.1, pk.1), pi.2 * pj.2 * pk.2)

/-- `num_quadrature_points(g, Q)`. -/
inductive Geom
  | segment | triangle | square | tetrahedron | cube

def numPoints : Geom → ℕ → ℕ
  | .segment, Q => Q
  | .triangle, Q => Q * (Q + 1) / 2
  | .square, Q => Q * Q
  | .tetrahedron, Q => Q * (Q + 1) * (Q + 2) / 6
  | .cube, Q => Q * Q * Q

/-- `Q = std::max({test::order, trials::order...}) + 1`. -/
def functionalQ (testOrder : ℕ) (trialOrders : List ℕ) : ℕ := trialOrders.foldl max testOrder + 1

/-- `for (int k = 0; ...) total += f(point[k]) * weight[k]` over the reals. -/
def sum1 (r : Rule ℚ) (f : ℝ → ℝ) : ℝ := r.foldl (fun s p => s + f p.1 * p.2) 0
def sum2 (r : Rule (ℚ × ℚ)) (f : ℝ → ℝ → ℝ) : ℝ := r.foldl (fun s p => s + f p.1.1 p.1.2 * p.2) 0
def sum3 (r : Rule (ℚ × ℚ × ℚ)) (f : ℝ → ℝ → ℝ → ℝ) : ℝ := r.foldl (fun s p => s + f p.1.1 p.1.2.1 p.1.2.2 * p.2) 0

end Serac.Quadrature
