import Verif.Lemmas.PolyCert

/-!
# Certificates for the elliptic integrals of elliptic.c

`starA` and `starB` are the coefficients of an approximation of the same kind as the one in
elliptic.c, but of degree 13 instead of 7. They were found numerically; nothing is assumed about them:
the theorems check by exact integer arithmetic what is needed. All numbers are multiples of `10⁻²⁶`.
-/
namespace Traceon.Cert

/-- The common denominator. -/
def den : ℤ := 10 ^ 26

/-- The part without logarithm; the first coefficient approximates `log 4`. -/
def starA : List ℤ :=
  [138629436111989061883446424, 9657359027997265470861606, 3088514453248461827495400, 1493760036978143406570514,
   876631220041010146059465, 575489025346981123243721, 406508484338990364602709, 304299308220165508879000,
   267386735303827577992429, 397750054462730345404125, 660561403005442173288840, 553091395807837075301665,
   159213335151358103024527, 9632087598386916961743]

/-- The part that is multiplied by `log (1/p)`. -/
def starB : List ℤ :=
  [50000000000000000000000000, 12500000000000000000000000, 7031249999999999999991818, 4882812499999995803136910,
   3738403320271598235416352, 3028106647185535791151988, 2544441709603069025597091, 2193371826097416577222340,
   1915480258618071450509798, 1602424939709655376415122, 1066980653732591616385878, 413766840166874019805389,
   63842422570560784436194, 2052084950889997088838]

/-- The coefficients of `ellipkm1` (elliptic.c:10-27) with `log 4` replaced by the same number as in `starA`. -/
def codeKA : List ℤ := [138629436111989061883446424, 9657360205167710000000000, 3089096338617950000000000, 1526183206225340000000000,
  1255656935432110000000000, 1686956859675170000000000, 1094238106886230000000000, 140704915496101000000000]
@[inherit_doc codeKA]
def codeKB : List ℤ := [50000000000000000000000000, 12499999858530900000000000, 7031141058532960000000000, 4873795109452180000000000,
  3572184430073270000000000, 2098576773367900000000000, 581807961871996000000000, 34280571922974800000000]

/-- The coefficients of `ellipem1` (elliptic.c:44-60). -/
def codeEA : List ℤ := [100000000000000000000000000, 44314719346773300000000000, 5681156810538030000000000, 2218622069938460000000000,
  1568477002397860000000000, 1922843890229770000000000, 1218194814866950000000000, 155618744745296000000000]
@[inherit_doc codeEA]
def codeEB : List ℤ := [0, 24999999844865500000000000, 9374880620981890000000000, 5849502970661660000000000,
  4090748215931640000000000, 2350916025649840000000000, 645682247315060000000000, 37888648734936700000000]

/-- `p (1 - p) P'` -/
def flux (P : List ℤ) : List ℤ := pmul [0, 1, -1] (pderiv P)

/-- Four times the residual of `starA + log(1/p) starB` in the differential equation of K: the part without logarithm. -/
def resA : List ℤ :=
  padd (psmul 4 (padd (pderiv (flux starA)) (padd starB (pmul [-2, 2] (pderiv starB))))) (psmul (-1) starA)
/-- Four times the residual: the part that is multiplied by the logarithm. -/
def resB : List ℤ := padd (psmul 4 (pderiv (flux starB))) (psmul (-1) starB)

/-- The difference of the code's K and `starA + log(1/p) starB`. -/
def difA : List ℤ := padd codeKA (psmul (-1) starA)
@[inherit_doc difA]
def difB : List ℤ := padd codeKB (psmul (-1) starB)

/-- The difference of the code's E and `p K - 2 p (1 - p) K'` for K from `starA` and `starB`. -/
def difEA : List ℤ := padd codeEA (padd (psmul (-1) (pmul [0, 1] starA)) (psmul 2 (padd (flux starA) (pmul [-1, 1] starB))))
@[inherit_doc difEA]
def difEB : List ℤ := padd codeEB (padd (psmul (-1) (pmul [0, 1] starB)) (psmul 2 (flux starB)))


/-- `log 2` -/
def ln2 : ℤ := 69314718055994530941723212

/-- `-log (W/128)` for `W` = 65 … 128 -/
def lnTab : List ℤ :=
  [67764299402398005526637808, 66237552189319162104620391, 64733764452865110625055285, 63252255874351046683662599,
   61792375932235778371862678, 60353502187025817679728065, 58935038687830174459117032, 57536414490356185487843801,
   56157082277122603682851599, 54796517071544741213529706, 53454215038330672532386095, 52129692363328608707713318,
   50822484206593331675332853, 49532143723002542905466005, 48258241145259567174767931, 47000362924573555365093703,
   45758110924717840033964390, 44531101665536405263662936, 43318965612301924244515263, 42121346507630355058556263,
   40937900742930071107033090, 39768296766610943303055022, 38612214526503344734210758, 37469344944141069360698491,
   36339389418747732760280931, 35222059358935209911214292, 34117075740276712476178467, 33024168687057685627940778,
   31943077076636122859621529, 30873548164961326968244206, 29815337231907633131083809, 28768207245178092743921901,
   27731928541623434380390323, 26706278524904524629268724, 25691041378502723906819080, 24686007793152579788464194,
   23690974707835771503642658, 22705745063534608485861287, 21730127568998139515202254, 20763936477824450161544104,
   19806991376209379481926754, 18859116980755002235892359, 17920142945771099261622603, 16989903679539747290042490,
   16068238169047346554330840, 15154989812720093784068982, 14250006260728303015728394, 13353139262452262314634362,
   12464244520727659733849336, 11583181552512170509912006, 10709813555636710051311269, 9844007281325251990288857,
   8985632912186104707664693, 8134563945395240588734236, 7290677080808778056573749, 6453852113757117167292392,
   5623971832287607779673769, 4800921918636060775200363, 3984590854719967065861624, 3174869831458030115699628,
   2371652661731604211834685, 1574835696813916860754951, 784317746102589287318404, 0]

/-- The check of 16 of the 64 intervals between 1/2 and 1. -/
def topOk (P Q : List ℤ) (t : ℤ) (j : ℕ) : Bool :=
  (List.range 16).all (fun k => blockOk den P Q (lnTab.getD (16 * j + k) 0) 3 t (65 + 16 * j + k) 128 10)

/-- The check of the eight intervals between `2⁻ⁱ⁻²` and `2⁻ⁱ⁻¹`. -/
def rowOk (P Q : List ℤ) (t : ℤ) (i : ℕ) : Bool :=
  (List.range 8).all (fun k =>
    blockOk den P Q ((i + 1) * ln2 + lnTab.getD (8 * k + 7) 0) 50000000 t (9 + k) (16 * 2 ^ (i + 1)) 12)

end Traceon.Cert
