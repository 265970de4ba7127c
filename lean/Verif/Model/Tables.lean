import Lean.Elab.Term
import Lean.ToExpr

/-!
# Data files of `src/pymiediff/materials/data`

Generated by `tools/tables.py`: the `data` entry of every tabulated file and the coefficients of every formula file,
verbatim, as YAML hands them to the loaders (mat.py:40-69).
-/

namespace MieDiff

open Lean in
/-- The characters of a string literal, as a list. -/
elab "chars! " s:str : term => return toExpr s.getString.toList

/-- materials/data/Ag_Johnson1972.yml:10-. -/
noncomputable def dataAg : List (List Char) := [
  chars! "0.1879 1.07 1.212",
  chars! "0.1916 1.10 1.232",
  chars! "0.1953 1.12 1.255",
  chars! "0.1993 1.14 1.277",
  chars! "0.2033 1.15 1.296",
  chars! "0.2073 1.18 1.312",
  chars! "0.2119 1.20 1.325",
  chars! "0.2164 1.22 1.336",
  chars! "0.2214 1.25 1.342",
  chars! "0.2262 1.26 1.344",
  chars! "0.2313 1.28 1.357",
  chars! "0.2371 1.28 1.367",
  chars! "0.2426 1.30 1.378",
  chars! "0.2490 1.31 1.389",
  chars! "0.2551 1.33 1.393",
  chars! "0.2616 1.35 1.387",
  chars! "0.2689 1.38 1.372",
  chars! "0.2761 1.41 1.331",
  chars! "0.2844 1.41 1.264",
  chars! "0.2924 1.39 1.161",
  chars! "0.3009 1.34 0.964",
  chars! "0.3107 1.13 0.616",
  chars! "0.3204 0.81 0.392",
  chars! "0.3315 0.17 0.829",
  chars! "0.3425 0.14 1.142",
  chars! "0.3542 0.10 1.419",
  chars! "0.3679 0.07 1.657",
  chars! "0.3815 0.05 1.864",
  chars! "0.3974 0.05 2.070",
  chars! "0.4133 0.05 2.275",
  chars! "0.4305 0.04 2.462",
  chars! "0.4509 0.04 2.657",
  chars! "0.4714 0.05 2.869",
  chars! "0.4959 0.05 3.093",
  chars! "0.5209 0.05 3.324",
  chars! "0.5486 0.06 3.586",
  chars! "0.5821 0.05 3.858",
  chars! "0.6168 0.06 4.152",
  chars! "0.6595 0.05 4.483",
  chars! "0.7045 0.04 4.838",
  chars! "0.7560 0.03 5.242",
  chars! "0.8211 0.04 5.727",
  chars! "0.8920 0.04 6.312",
  chars! "0.9840 0.04 6.992",
  chars! "1.0880 0.04 7.795",
  chars! "1.2160 0.09 8.828",
  chars! "1.3930 0.13 10.10",
  chars! "1.6100 0.15 11.85",
  chars! "1.9370 0.24 14.08"]

/-- materials/data/Al_Rakic1995.yml:10-. -/
noncomputable def dataAl : List (List Char) := [
  chars! "1.2399E-04 9.999946E-01 8.2410E-08",
  chars! "1.3051E-04 9.99994E-01 1.2720E-07",
  chars! "1.3776E-04 9.99993E-01 1.2488E-07",
  chars! "1.5498E-04 9.99991E-01 1.9173E-07",
  chars! "1.7712E-04 9.99989E-01 3.1463E-07",
  chars! "2.0664E-04 9.99984E-01 5.5102E-07",
  chars! "2.4797E-04 9.9998E-01 1.0726E-06",
  chars! "3.0996E-04 9.9997E-01 2.4843E-06",
  chars! "3.5424E-04 9.9995E-01 4.0484E-06",
  chars! "4.1328E-04 9.9994E-01 7.1408E-06",
  chars! "4.9594E-04 9.9991E-01 1.3642E-05",
  chars! "6.1993E-04 9.9987E-01 3.2079E-05",
  chars! "6.5255E-04 9.9986E-01 3.8497E-05",
  chars! "6.8881E-04 9.9985E-01 4.7138E-05",
  chars! "7.2932E-04 9.9984E-01 5.7974E-05",
  chars! "7.4021E-04 9.9984E-01 6.1633E-05",
  chars! "7.7734E-04 9.9986E-01 7.4862E-05",
  chars! "7.8472E-04 9.9987E-01 7.8480E-05",
  chars! "7.9274E-04 9.9990E-01 8.5418E-05",
  chars! "7.9376E-04 9.9992E-01 7.1847E-05",
  chars! "7.9478E-04 9.9993E-01 4.9998E-05",
  chars! "7.9529E-04 9.9992E-01 4.1131E-05",
  chars! "7.9580E-04 9.9992E-01 3.2911E-05",
  chars! "7.9785E-04 9.9991E-01 2.3687E-05",
  chars! "7.9887E-04 9.9991E-01 1.1026E-05",
  chars! "7.9990E-04 9.9989E-01 6.0484E-06",
  chars! "8.0510E-04 9.9987E-01 6.1901E-06",
  chars! "8.1569E-04 9.9985E-01 6.4818E-06",
  chars! "8.2657E-04 9.9983E-01 6.8049E-06",
  chars! "8.5507E-04 9.9981E-01 7.8422E-06",
  chars! "8.8561E-04 9.9979E-01 8.9400E-06",
  chars! "9.5373E-04 9.9974E-01 1.1636E-05",
  chars! "1.0332E-03 9.9968E-01 1.5628E-05",
  chars! "1.1271E-03 9.9961E-01 2.1586E-05",
  chars! "1.2399E-03 9.9953E-01 3.1115E-05",
  chars! "1.3776E-03 9.9940E-01 4.6771E-05",
  chars! "1.5498E-03 9.9924E-01 7.2992E-05",
  chars! "1.7712E-03 9.9898E-01 1.1811E-04",
  chars! "2.0664E-03 9.9860E-01 2.2001E-04",
  chars! "2.4797E-03 9.9797E-01 4.3503E-04",
  chars! "3.0996E-03 9.9694E-01 9.6887E-04",
  chars! "4.1328E-03 9.9480E-01 2.3492E-03",
  chars! "4.9594E-03 9.9313E-01 4.1863E-03",
  chars! "6.1993E-03 9.9111E-01 7.5099E-03",
  chars! "6.5255E-03 9.9054E-01 8.4716E-03",
  chars! "6.8881E-03 9.9007E-01 9.6517E-03",
  chars! "7.2932E-03 9.8909E-01 1.0987E-02",
  chars! "7.7491E-03 9.8912E-01 1.3728E-02",
  chars! "8.2657E-03 9.8966E-01 1.4773E-02",
  chars! "8.5507E-03 9.8934E-01 1.5437E-02",
  chars! "8.8561E-03 9.8883E-01 1.6304E-02",
  chars! "9.1841E-03 9.8793E-01 1.7765E-02",
  chars! "9.5373E-03 9.8761E-01 2.0606E-02",
  chars! "9.9188E-03 9.8941E-01 2.3421E-02",
  chars! "1.0332E-02 9.9139E-01 2.4063E-02",
  chars! "1.0781E-02 9.9233E-01 2.4928E-02",
  chars! "1.1271E-02 9.9415E-01 2.5452E-02",
  chars! "1.1808E-02 9.9285E-01 2.4415E-02",
  chars! "1.2399E-02 9.9123E-01 2.9920E-02",
  chars! "1.2652E-02 9.9265E-01 3.3061E-02",
  chars! "1.2915E-02 9.9652E-01 3.5883E-02",
  chars! "1.3190E-02 1.0012E+00 3.5311E-02",
  chars! "1.3477E-02 1.0041E+00 3.3392E-02",
  chars! "1.3776E-02 1.0058E+00 3.0918E-02",
  chars! "1.4089E-02 1.0060E+00 2.8956E-02",
  chars! "1.4417E-02 1.0065E+00 2.8232E-02",
  chars! "1.4760E-02 1.0074E+00 2.6826E-02",
  chars! "1.5120E-02 1.0077E+00 2.5460E-02",
  chars! "1.5498E-02 1.0075E+00 2.4476E-02",
  chars! "1.5694E-02 1.0075E+00 2.4501E-02",
  chars! "1.5896E-02 1.0078E+00 2.4757E-02",
  chars! "1.6102E-02 1.0095E+00 2.5180E-02",
  chars! "1.6314E-02 1.0106E+00 2.3853E-02",
  chars! "1.6422E-02 1.0110E+00 2.3955E-02",
  chars! "1.6531E-02 1.0118E+00 2.4020E-02",
  chars! "1.6642E-02 1.0132E+00 2.4343E-02",
  chars! "1.6755E-02 1.0151E+00 2.4184E-02",
  chars! "1.6777E-02 1.0156E+00 2.4228E-02",
  chars! "1.6800E-02 1.0161E+00 2.4282E-02",
  chars! "1.6823E-02 1.0167E+00 2.4375E-02",
  chars! "1.6846E-02 1.0173E+00 2.4499E-02",
  chars! "1.6869E-02 1.0181E+00 2.4831E-02",
  chars! "1.6892E-02 1.0194E+00 2.5432E-02",
  chars! "1.6915E-02 1.0219E+00 2.6018E-02",
  chars! "1.6938E-02 1.0259E+00 2.4227E-02",
  chars! "1.6961E-02 1.0262E+00 1.9564E-02",
  chars! "1.6984E-02 1.0246E+00 1.9145E-02",
  chars! "1.7008E-02 1.0255E+00 2.0012E-02",
  chars! "1.7031E-02 1.0305E+00 2.0072E-02",
  chars! "1.7054E-02 1.0349E+00 1.2476E-02",
  chars! "1.7078E-02 1.0305E+00 4.1164E-03",
  chars! "1.7101E-02 1.0249E+00 3.6218E-03",
  chars! "1.7125E-02 1.0226E+00 3.4141E-03",
  chars! "1.7149E-02 1.0206E+00 3.4400E-03",
  chars! "1.7172E-02 1.0192E+00 3.4767E-03",
  chars! "1.7196E-02 1.0179E+00 3.4877E-03",
  chars! "1.7208E-02 1.0174E+00 3.5108E-03",
  chars! "1.7220E-02 1.0169E+00 3.5249E-03",
  chars! "1.7463E-02 1.0108E+00 3.4957E-03",
  chars! "1.7712E-02 1.0070E+00 3.5425E-03",
  chars! "1.8233E-02 1.0019E+00 3.6730E-03",
  chars! "1.8786E-02 9.9791E-01 3.8926E-03",
  chars! "1.9373E-02 9.9457E-01 4.1092E-03",
  chars! "1.9998E-02 9.9143E-01 4.2397E-03",
  chars! "2.0664E-02 9.8827E-01 4.3696E-03",
  chars! "2.2543E-02 9.7998E-01 5.0004E-03",
  chars! "2.4797E-02 9.7048E-01 5.7469E-03",
  chars! "2.7552E-02 9.5834E-01 6.6191E-03",
  chars! "3.0996E-02 9.4189E-01 7.8466E-03",
  chars! "3.5424E-02 9.1802E-01 9.3121E-03",
  chars! "4.1328E-02 8.8013E-01 1.1651E-02",
  chars! "4.9594E-02 8.1512E-01 1.5894E-02",
  chars! "6.1993E-02 6.7912E-01 2.2340E-02",
  chars! "6.5255E-02 6.3242E-01 2.4770E-02",
  chars! "6.8881E-02 5.7251E-01 2.7681E-02",
  chars! "7.2932E-02 4.9131E-01 3.2409E-02",
  chars! "7.7491E-02 3.7197E-01 4.4202E-02",
  chars! "7.8472E-02 3.4031E-01 4.8320E-02",
  chars! "7.9478E-02 3.0373E-01 5.3349E-02",
  chars! "7.9990E-02 2.8271E-01 5.6697E-02",
  chars! "8.0510E-02 2.5936E-01 6.1407E-02",
  chars! "8.1036E-02 2.3344E-01 6.8348E-02",
  chars! "8.1569E-02 2.0569E-01 7.9959E-02",
  chars! "8.2109E-02 1.7943E-01 9.4223E-02",
  chars! "8.2657E-02 1.5065E-01 1.1041E-01",
  chars! "8.3774E-02 9.4517E-02 1.6589E-01",
  chars! "8.4921E-02 6.7041E-02 2.3420E-01",
  chars! "8.6101E-02 5.4863E-02 2.9293E-01",
  chars! "8.8561E-02 4.4168E-02 3.9115E-01",
  chars! "9.5373E-02 3.6437E-02 5.9086E-01",
  chars! "1.0332E-01 3.5753E-02 7.7163E-01",
  chars! "1.1271E-01 3.8468E-02 9.5677E-01",
  chars! "1.2399E-01 4.6304E-02 1.1555E+00",
  chars! "1.3776E-01 5.7167E-02 1.3775E+00",
  chars! "1.5498E-01 7.2505E-02 1.6366E+00",
  chars! "1.7712E-01 9.4236E-02 1.9519E+00",
  chars! "2.0664E-01 1.2677E-01 2.3563E+00",
  chars! "2.4797E-01 1.8137E-01 2.9029E+00",
  chars! "3.0996E-01 2.8003E-01 3.7081E+00",
  chars! "3.2628E-01 3.1474E-01 3.9165E+00",
  chars! "3.6466E-01 3.9877E-01 4.3957E+00",
  chars! "4.1328E-01 5.2135E-01 5.0008E+00",
  chars! "4.4280E-01 6.0790E-01 5.3676E+00",
  chars! "4.7687E-01 7.2780E-01 5.7781E+00",
  chars! "5.1660E-01 8.7340E-01 6.2418E+00",
  chars! "5.6357E-01 1.0728E+00 6.7839E+00",
  chars! "6.1993E-01 1.3660E+00 7.4052E+00",
  chars! "6.5225E-01 1.5724E+00 7.7354E+00",
  chars! "6.8881E-01 1.8301E+00 8.0601E+00",
  chars! "7.2932E-01 2.1606E+00 8.3565E+00",
  chars! "7.7491E-01 2.6154E+00 8.4914E+00",
  chars! "7.9478E-01 2.7675E+00 8.3866E+00",
  chars! "8.1569E-01 2.7668E+00 8.2573E+00",
  chars! "8.3774E-01 2.6945E+00 8.1878E+00",
  chars! "8.8561E-01 2.2802E+00 8.1134E+00",
  chars! "9.1166E-01 1.9739E+00 8.3058E+00",
  chars! "9.3928E-01 1.6784E+00 8.5970E+00",
  chars! "9.6863E-01 1.4867E+00 9.0655E+00",
  chars! "9.9988E-01 1.4359E+00 9.4939E+00",
  chars! "1.0332E+00 1.3998E+00 9.8914E+00",
  chars! "1.1271E+00 1.3281E+00 1.0969E+01",
  chars! "1.2399E+00 1.3157E+00 1.2245E+01",
  chars! "1.3776E+00 1.3899E+00 1.3784E+01",
  chars! "1.5498E+00 1.5782E+00 1.5656E+01",
  chars! "1.7712E+00 1.9205E+00 1.7991E+01",
  chars! "2.0664E+00 2.4738E+00 2.0982E+01",
  chars! "2.4797E+00 3.3372E+00 2.5004E+01",
  chars! "2.7552E+00 3.9380E+00 2.7580E+01",
  chars! "3.0996E+00 4.7097E+00 3.0737E+01",
  chars! "3.2628E+00 5.0735E+00 3.2183E+01",
  chars! "3.4440E+00 5.4903E+00 3.3814E+01",
  chars! "3.6466E+00 5.9564E+00 3.5608E+01",
  chars! "3.8745E+00 6.4808E+00 3.7595E+01",
  chars! "4.1328E+00 7.0796E+00 3.9826E+01",
  chars! "4.4280E+00 7.7757E+00 4.2367E+01",
  chars! "4.7687E+00 8.5881E+00 4.5257E+01",
  chars! "5.1660E+00 9.5580E+00 4.8593E+01",
  chars! "5.6357E+00 1.0742E+01 5.2518E+01",
  chars! "6.1993E+00 1.2195E+01 5.7156E+01",
  chars! "6.8881E+00 1.4088E+01 6.2841E+01",
  chars! "7.7491E+00 1.6755E+01 6.9857E+01",
  chars! "8.8561E+00 2.0837E+01 7.8274E+01",
  chars! "1.0332E+01 2.6216E+01 8.8197E+01",
  chars! "1.2399E+01 3.3519E+01 1.0128E+02",
  chars! "1.3776E+01 3.8461E+01 1.0896E+02",
  chars! "1.5498E+01 4.3775E+01 1.1839E+02",
  chars! "1.7712E+01 5.0951E+01 1.2949E+02",
  chars! "1.9075E+01 5.4413E+01 1.3609E+02",
  chars! "2.0664E+01 5.8580E+01 1.4423E+02",
  chars! "2.2543E+01 6.3554E+01 1.5345E+02",
  chars! "2.4797E+01 6.8535E+01 1.6481E+02",
  chars! "2.7552E+01 7.5748E+01 1.8178E+02",
  chars! "3.0996E+01 9.1955E+01 1.9999E+02",
  chars! "3.3333E+01 1.0210E+02 2.0810E+02",
  chars! "4.0000E+01 1.2514E+02 2.3019E+02",
  chars! "4.4444E+01 1.4005E+02 2.4343E+02",
  chars! "5.0000E+01 1.5730E+02 2.5826E+02",
  chars! "5.7144E+01 1.7793E+02 2.7534E+02",
  chars! "6.6666E+01 2.0263E+02 2.9542E+02",
  chars! "8.0001E+01 2.3356E+02 3.2108E+02",
  chars! "9.9996E+01 2.7438E+02 3.5435E+02",
  chars! "1.2500E+02 3.1881E+02 3.9171E+02",
  chars! "1.3776E+02 3.3962E+02 4.0892E+02",
  chars! "1.5385E+02 3.6404E+02 4.2962E+02",
  chars! "1.7712E+02 3.9793E+02 4.5850E+02",
  chars! "2.0000E+02 4.2396E+02 4.8370E+02"]

/-- materials/data/Au_Johnson1972.yml:10-. -/
noncomputable def dataAu : List (List Char) := [
  chars! "0.1879 1.28 1.188",
  chars! "0.1916 1.32 1.203",
  chars! "0.1953 1.34 1.226",
  chars! "0.1993 1.33 1.251",
  chars! "0.2033 1.33 1.277",
  chars! "0.2073 1.30 1.304",
  chars! "0.2119 1.30 1.350",
  chars! "0.2164 1.30 1.387",
  chars! "0.2214 1.30 1.427",
  chars! "0.2262 1.31 1.460",
  chars! "0.2313 1.30 1.497",
  chars! "0.2371 1.32 1.536",
  chars! "0.2426 1.32 1.577",
  chars! "0.2490 1.33 1.631",
  chars! "0.2551 1.33 1.688",
  chars! "0.2616 1.35 1.749",
  chars! "0.2689 1.38 1.803",
  chars! "0.2761 1.43 1.847",
  chars! "0.2844 1.47 1.869",
  chars! "0.2924 1.49 1.878",
  chars! "0.3009 1.53 1.889",
  chars! "0.3107 1.53 1.893",
  chars! "0.3204 1.54 1.898",
  chars! "0.3315 1.48 1.883",
  chars! "0.3425 1.48 1.871",
  chars! "0.3542 1.50 1.866",
  chars! "0.3679 1.48 1.895",
  chars! "0.3815 1.46 1.933",
  chars! "0.3974 1.47 1.952",
  chars! "0.4133 1.46 1.958",
  chars! "0.4305 1.45 1.948",
  chars! "0.4509 1.38 1.914",
  chars! "0.4714 1.31 1.849",
  chars! "0.4959 1.04 1.833",
  chars! "0.5209 0.62 2.081",
  chars! "0.5486 0.43 2.455",
  chars! "0.5821 0.29 2.863",
  chars! "0.6168 0.21 3.272",
  chars! "0.6595 0.14 3.697",
  chars! "0.7045 0.13 4.103",
  chars! "0.7560 0.14 4.542",
  chars! "0.8211 0.16 5.083",
  chars! "0.8920 0.17 5.663",
  chars! "0.9840 0.22 6.350",
  chars! "1.0880 0.27 7.150",
  chars! "1.2160 0.35 8.145",
  chars! "1.3930 0.43 9.519",
  chars! "1.6100 0.56 11.21",
  chars! "1.9370 0.92 13.78"]

/-- materials/data/GaAs_Papatryfonos2021.yml:10-. -/
noncomputable def dataGaAs : List (List Char) := [
  chars! "0.26049 3.43205E+00 3.70410E+00",
  chars! "0.26159 3.49606E+00 3.64117E+00",
  chars! "0.26270 3.55371E+00 3.57757E+00",
  chars! "0.26381 3.60654E+00 3.51408E+00",
  chars! "0.26494 3.65273E+00 3.45129E+00",
  chars! "0.26608 3.69534E+00 3.38972E+00",
  chars! "0.26723 3.73572E+00 3.32935E+00",
  chars! "0.26838 3.77466E+00 3.27031E+00",
  chars! "0.26955 3.81255E+00 3.21369E+00",
  chars! "0.27073 3.85100E+00 3.15591E+00",
  chars! "0.27191 3.88906E+00 3.09523E+00",
  chars! "0.27311 3.92570E+00 3.03074E+00",
  chars! "0.27432 3.95920E+00 2.96174E+00",
  chars! "0.27554 3.98624E+00 2.88868E+00",
  chars! "0.27677 4.00656E+00 2.81381E+00",
  chars! "0.27801 4.02017E+00 2.73806E+00",
  chars! "0.27926 4.02559E+00 2.66281E+00",
  chars! "0.28053 4.02430E+00 2.59006E+00",
  chars! "0.28180 4.01657E+00 2.52174E+00",
  chars! "0.28309 4.00489E+00 2.45728E+00",
  chars! "0.28439 3.98902E+00 2.39759E+00",
  chars! "0.28570 3.96990E+00 2.34234E+00",
  chars! "0.28702 3.94939E+00 2.29093E+00",
  chars! "0.28835 3.92597E+00 2.24486E+00",
  chars! "0.28970 3.90179E+00 2.20272E+00",
  chars! "0.29106 3.87715E+00 2.16454E+00",
  chars! "0.29244 3.85202E+00 2.13020E+00",
  chars! "0.29382 3.82681E+00 2.09947E+00",
  chars! "0.29522 3.80272E+00 2.07313E+00",
  chars! "0.29663 3.77926E+00 2.04943E+00",
  chars! "0.29806 3.75660E+00 2.02852E+00",
  chars! "0.29950 3.73487E+00 2.01023E+00",
  chars! "0.30095 3.71427E+00 1.99379E+00",
  chars! "0.30242 3.69528E+00 1.97977E+00",
  chars! "0.30390 3.67681E+00 1.96769E+00",
  chars! "0.30540 3.65930E+00 1.95727E+00",
  chars! "0.30691 3.64294E+00 1.94825E+00",
  chars! "0.30844 3.62778E+00 1.93981E+00",
  chars! "0.30998 3.61349E+00 1.93311E+00",
  chars! "0.31154 3.60025E+00 1.92791E+00",
  chars! "0.31311 3.58797E+00 1.92367E+00",
  chars! "0.31470 3.57682E+00 1.92011E+00",
  chars! "0.31631 3.56678E+00 1.91769E+00",
  chars! "0.31793 3.55791E+00 1.91633E+00",
  chars! "0.31957 3.54997E+00 1.91573E+00",
  chars! "0.32122 3.54276E+00 1.91584E+00",
  chars! "0.32290 3.53647E+00 1.91647E+00",
  chars! "0.32459 3.53138E+00 1.91829E+00",
  chars! "0.32630 3.52709E+00 1.92056E+00",
  chars! "0.32802 3.52373E+00 1.92347E+00",
  chars! "0.32977 3.52125E+00 1.92716E+00",
  chars! "0.33153 3.51961E+00 1.93129E+00",
  chars! "0.33331 3.51910E+00 1.93595E+00",
  chars! "0.33512 3.51958E+00 1.94137E+00",
  chars! "0.33694 3.52105E+00 1.94732E+00",
  chars! "0.33878 3.52363E+00 1.95364E+00",
  chars! "0.34064 3.52704E+00 1.96036E+00",
  chars! "0.34252 3.53132E+00 1.96789E+00",
  chars! "0.34442 3.53694E+00 1.97692E+00",
  chars! "0.34635 3.54380E+00 1.98420E+00",
  chars! "0.34829 3.55161E+00 1.99392E+00",
  chars! "0.35026 3.56058E+00 2.00292E+00",
  chars! "0.35225 3.57093E+00 2.01410E+00",
  chars! "0.35426 3.58246E+00 2.02527E+00",
  chars! "0.35630 3.59541E+00 2.03711E+00",
  chars! "0.35836 3.60991E+00 2.04836E+00",
  chars! "0.36044 3.62589E+00 2.05913E+00",
  chars! "0.36255 3.64421E+00 2.07072E+00",
  chars! "0.36468 3.66468E+00 2.08308E+00",
  chars! "0.36684 3.68747E+00 2.09605E+00",
  chars! "0.36903 3.71315E+00 2.10960E+00",
  chars! "0.37124 3.74297E+00 2.12445E+00",
  chars! "0.37347 3.77707E+00 2.14027E+00",
  chars! "0.37574 3.81787E+00 2.15726E+00",
  chars! "0.37803 3.86684E+00 2.17578E+00",
  chars! "0.38035 3.92505E+00 2.19609E+00",
  chars! "0.38269 3.99982E+00 2.21797E+00",
  chars! "0.38507 4.08670E+00 2.24157E+00",
  chars! "0.38748 4.17867E+00 2.26621E+00",
  chars! "0.38991 4.26329E+00 2.29044E+00",
  chars! "0.39238 4.32937E+00 2.30642E+00",
  chars! "0.39488 4.37664E+00 2.30637E+00",
  chars! "0.39741 4.41240E+00 2.28487E+00",
  chars! "0.39998 4.44075E+00 2.24214E+00",
  chars! "0.40257 4.46702E+00 2.18391E+00",
  chars! "0.40520 4.49714E+00 2.12482E+00",
  chars! "0.40787 4.54333E+00 2.07205E+00",
  chars! "0.41057 4.61656E+00 2.02894E+00",
  chars! "0.41331 4.72058E+00 1.99759E+00",
  chars! "0.41608 4.85265E+00 1.97753E+00",
  chars! "0.41889 4.96468E+00 1.97061E+00",
  chars! "0.42174 5.02373E+00 1.96602E+00",
  chars! "0.42463 5.03903E+00 1.94662E+00",
  chars! "0.42756 5.02004E+00 1.88758E+00",
  chars! "0.43053 4.98074E+00 1.74458E+00",
  chars! "0.43354 4.93203E+00 1.57944E+00",
  chars! "0.43659 4.88076E+00 1.41707E+00",
  chars! "0.43969 4.82963E+00 1.27015E+00",
  chars! "0.44283 4.77962E+00 1.14610E+00",
  chars! "0.44602 4.73089E+00 1.04502E+00",
  chars! "0.44925 4.68558E+00 9.61390E-01",
  chars! "0.45253 4.64157E+00 8.89840E-01",
  chars! "0.45586 4.59938E+00 8.28110E-01",
  chars! "0.45923 4.55929E+00 7.75750E-01",
  chars! "0.46266 4.52144E+00 7.28640E-01",
  chars! "0.46614 4.48543E+00 6.88030E-01",
  chars! "0.46967 4.45063E+00 6.51360E-01",
  chars! "0.47325 4.41771E+00 6.16930E-01",
  chars! "0.47689 4.38605E+00 5.86930E-01",
  chars! "0.48059 4.35607E+00 5.59970E-01",
  chars! "0.48435 4.32739E+00 5.36110E-01",
  chars! "0.48816 4.29988E+00 5.13500E-01",
  chars! "0.49203 4.27343E+00 4.91710E-01",
  chars! "0.49597 4.24774E+00 4.72080E-01",
  chars! "0.49997 4.22320E+00 4.53380E-01",
  chars! "0.50403 4.19966E+00 4.36300E-01",
  chars! "0.50817 4.17705E+00 4.20600E-01",
  chars! "0.51237 4.15524E+00 4.05180E-01",
  chars! "0.51664 4.13387E+00 3.91990E-01",
  chars! "0.52098 4.11371E+00 3.79230E-01",
  chars! "0.52539 4.09432E+00 3.66410E-01",
  chars! "0.52988 4.07533E+00 3.53750E-01",
  chars! "0.53445 4.05701E+00 3.42790E-01",
  chars! "0.53910 4.03901E+00 3.30670E-01",
  chars! "0.54383 4.02185E+00 3.19020E-01",
  chars! "0.54864 4.00542E+00 3.08750E-01",
  chars! "0.55354 3.98939E+00 2.98750E-01",
  chars! "0.55853 3.97389E+00 2.91260E-01",
  chars! "0.56360 3.95906E+00 2.83600E-01",
  chars! "0.56877 3.94467E+00 2.74900E-01",
  chars! "0.57404 3.93106E+00 2.66620E-01",
  chars! "0.57940 3.91783E+00 2.58370E-01",
  chars! "0.58487 3.90469E+00 2.50750E-01",
  chars! "0.59044 3.89200E+00 2.44100E-01",
  chars! "0.59612 3.87986E+00 2.35830E-01",
  chars! "0.60191 3.86815E+00 2.27180E-01",
  chars! "0.60781 3.85669E+00 2.18390E-01",
  chars! "0.61382 3.84603E+00 2.13400E-01",
  chars! "0.61996 3.83524E+00 2.07770E-01",
  chars! "0.62623 3.82498E+00 2.01580E-01",
  chars! "0.63262 3.81546E+00 1.95820E-01",
  chars! "0.63914 3.80690E+00 1.89550E-01",
  chars! "0.64579 3.79813E+00 1.83490E-01",
  chars! "0.65259 3.79034E+00 1.78060E-01",
  chars! "0.65954 3.78184E+00 1.72580E-01",
  chars! "0.66663 3.77177E+00 1.65900E-01",
  chars! "0.67387 3.75979E+00 1.59260E-01",
  chars! "0.68128 3.74792E+00 1.51840E-01",
  chars! "0.68885 3.73689E+00 1.43030E-01",
  chars! "0.69659 3.72659E+00 1.33120E-01",
  chars! "0.70450 3.71666E+00 1.25050E-01",
  chars! "0.71260 3.70768E+00 1.18710E-01",
  chars! "0.72089 3.70001E+00 1.13340E-01",
  chars! "0.72937 3.69257E+00 1.08510E-01",
  chars! "0.73805 3.68538E+00 1.03950E-01",
  chars! "0.74694 3.67856E+00 1.00230E-01",
  chars! "0.75605 3.67249E+00 9.59500E-02",
  chars! "0.76539 3.66659E+00 9.16300E-02",
  chars! "0.77495 3.66130E+00 8.71100E-02",
  chars! "0.78476 3.65752E+00 8.19200E-02",
  chars! "0.79482 3.65601E+00 7.80300E-02",
  chars! "0.80515 3.64806E+00 7.33100E-02",
  chars! "0.81574 3.62635E+00 6.75700E-02",
  chars! "0.82662 3.60509E+00 6.02500E-02",
  chars! "0.83779 3.58756E+00 5.00900E-02",
  chars! "0.84926 3.57142E+00 2.51200E-02",
  chars! "0.86106 3.56115E+00 1.14400E-02",
  chars! "0.87319 3.55095E+00 6.10000E-03",
  chars! "0.88566 3.54215E+00 4.05000E-03",
  chars! "0.89850 3.53347E+00 2.02400E-04",
  chars! "0.91171 3.52476E+00 9.71111E-05",
  chars! "0.92532 3.51557E+00 6.13333E-06",
  chars! "0.93934 3.50642E+00 0.00000E+00",
  chars! "0.95379 3.49757E+00 0.00000E+00",
  chars! "0.96869 3.48877E+00 0.00000E+00",
  chars! "0.98407 3.48010E+00 0.00000E+00",
  chars! "0.99994 3.47343E+00 0.00000E+00",
  chars! "1.01633 3.46678E+00 0.00000E+00",
  chars! "1.03327 3.46037E+00 0.00000E+00",
  chars! "1.05078 3.45399E+00 0.00000E+00",
  chars! "1.06890 3.44767E+00 0.00000E+00",
  chars! "1.08765 3.44250E+00 0.00000E+00",
  chars! "1.10708 3.43736E+00 0.00000E+00",
  chars! "1.12721 3.43236E+00 0.00000E+00",
  chars! "1.14808 3.42740E+00 0.00000E+00",
  chars! "1.16974 3.42251E+00 0.00000E+00",
  chars! "1.19224 3.41848E+00 0.00000E+00",
  chars! "1.21561 3.41446E+00 0.00000E+00",
  chars! "1.23993 3.41057E+00 0.00000E+00",
  chars! "1.26523 3.40731E+00 0.00000E+00",
  chars! "1.29159 3.40587E+00 0.00000E+00",
  chars! "1.31907 3.40247E+00 0.00000E+00",
  chars! "1.34775 3.39611E+00 0.00000E+00",
  chars! "1.37770 3.39284E+00 0.00000E+00",
  chars! "1.40901 3.38961E+00 0.00000E+00",
  chars! "1.44177 3.38641E+00 0.00000E+00",
  chars! "1.47610 3.38363E+00 0.00000E+00",
  chars! "1.51210 3.38078E+00 0.00000E+00",
  chars! "1.54991 3.37793E+00 0.00000E+00",
  chars! "1.58965 3.37534E+00 0.00000E+00",
  chars! "1.63148 3.37799E+00 0.00000E+00",
  chars! "1.67558 3.37666E+00 0.00000E+00",
  chars! "1.72212 3.37408E+00 0.00000E+00",
  chars! "1.77132 3.37140E+00 0.00000E+00",
  chars! "1.82342 3.36872E+00 0.00000E+00",
  chars! "1.87868 3.36654E+00 0.00000E+00"]

/-- materials/data/GaN_Kawashima1997.yml:10-. -/
noncomputable def dataGaN : List (List Char) := [
  chars! "1.2398e-01 9.0117e-01 1.4895e+00",
  chars! "1.2420e-01 9.0784e-01 1.4970e+00",
  chars! "1.2442e-01 9.1466e-01 1.5044e+00",
  chars! "1.2464e-01 9.2162e-01 1.5118e+00",
  chars! "1.2486e-01 9.2873e-01 1.5191e+00",
  chars! "1.2508e-01 9.3599e-01 1.5264e+00",
  chars! "1.2530e-01 9.4340e-01 1.5336e+00",
  chars! "1.2552e-01 9.5096e-01 1.5407e+00",
  chars! "1.2575e-01 9.5867e-01 1.5478e+00",
  chars! "1.2597e-01 9.6654e-01 1.5548e+00",
  chars! "1.2620e-01 9.7455e-01 1.5617e+00",
  chars! "1.2642e-01 9.8272e-01 1.5685e+00",
  chars! "1.2665e-01 9.9104e-01 1.5752e+00",
  chars! "1.2688e-01 9.9951e-01 1.5818e+00",
  chars! "1.2710e-01 1.0081e+00 1.5883e+00",
  chars! "1.2733e-01 1.0169e+00 1.5947e+00",
  chars! "1.2756e-01 1.0258e+00 1.6010e+00",
  chars! "1.2779e-01 1.0349e+00 1.6071e+00",
  chars! "1.2803e-01 1.0441e+00 1.6131e+00",
  chars! "1.2826e-01 1.0535e+00 1.6190e+00",
  chars! "1.2849e-01 1.0630e+00 1.6247e+00",
  chars! "1.2872e-01 1.0726e+00 1.6302e+00",
  chars! "1.2896e-01 1.0823e+00 1.6356e+00",
  chars! "1.2919e-01 1.0922e+00 1.6408e+00",
  chars! "1.2943e-01 1.1022e+00 1.6458e+00",
  chars! "1.2967e-01 1.1124e+00 1.6507e+00",
  chars! "1.2991e-01 1.1226e+00 1.6553e+00",
  chars! "1.3015e-01 1.1329e+00 1.6597e+00",
  chars! "1.3039e-01 1.1434e+00 1.6640e+00",
  chars! "1.3063e-01 1.1539e+00 1.6680e+00",
  chars! "1.3087e-01 1.1645e+00 1.6718e+00",
  chars! "1.3111e-01 1.1752e+00 1.6753e+00",
  chars! "1.3135e-01 1.1860e+00 1.6786e+00",
  chars! "1.3160e-01 1.1968e+00 1.6817e+00",
  chars! "1.3184e-01 1.2076e+00 1.6845e+00",
  chars! "1.3209e-01 1.2185e+00 1.6871e+00",
  chars! "1.3234e-01 1.2294e+00 1.6894e+00",
  chars! "1.3259e-01 1.2403e+00 1.6915e+00",
  chars! "1.3284e-01 1.2512e+00 1.6933e+00",
  chars! "1.3309e-01 1.2621e+00 1.6948e+00",
  chars! "1.3334e-01 1.2730e+00 1.6960e+00",
  chars! "1.3359e-01 1.2838e+00 1.6970e+00",
  chars! "1.3384e-01 1.2945e+00 1.6978e+00",
  chars! "1.3410e-01 1.3052e+00 1.6982e+00",
  chars! "1.3435e-01 1.3158e+00 1.6984e+00",
  chars! "1.3461e-01 1.3262e+00 1.6983e+00",
  chars! "1.3486e-01 1.3366e+00 1.6980e+00",
  chars! "1.3512e-01 1.3468e+00 1.6974e+00",
  chars! "1.3538e-01 1.3569e+00 1.6966e+00",
  chars! "1.3564e-01 1.3668e+00 1.6955e+00",
  chars! "1.3590e-01 1.3765e+00 1.6942e+00",
  chars! "1.3616e-01 1.3860e+00 1.6927e+00",
  chars! "1.3642e-01 1.3953e+00 1.6910e+00",
  chars! "1.3669e-01 1.4044e+00 1.6890e+00",
  chars! "1.3695e-01 1.4133e+00 1.6869e+00",
  chars! "1.3722e-01 1.4219e+00 1.6846e+00",
  chars! "1.3748e-01 1.4302e+00 1.6822e+00",
  chars! "1.3775e-01 1.4383e+00 1.6796e+00",
  chars! "1.3802e-01 1.4461e+00 1.6769e+00",
  chars! "1.3829e-01 1.4535e+00 1.6741e+00",
  chars! "1.3856e-01 1.4607e+00 1.6712e+00",
  chars! "1.3883e-01 1.4676e+00 1.6682e+00",
  chars! "1.3911e-01 1.4742e+00 1.6652e+00",
  chars! "1.3938e-01 1.4804e+00 1.6621e+00",
  chars! "1.3966e-01 1.4863e+00 1.6591e+00",
  chars! "1.3993e-01 1.4920e+00 1.6561e+00",
  chars! "1.4021e-01 1.4972e+00 1.6531e+00",
  chars! "1.4049e-01 1.5022e+00 1.6501e+00",
  chars! "1.4077e-01 1.5068e+00 1.6473e+00",
  chars! "1.4105e-01 1.5112e+00 1.6446e+00",
  chars! "1.4133e-01 1.5152e+00 1.6420e+00",
  chars! "1.4162e-01 1.5189e+00 1.6395e+00",
  chars! "1.4190e-01 1.5223e+00 1.6373e+00",
  chars! "1.4218e-01 1.5254e+00 1.6352e+00",
  chars! "1.4247e-01 1.5283e+00 1.6333e+00",
  chars! "1.4276e-01 1.5309e+00 1.6317e+00",
  chars! "1.4305e-01 1.5332e+00 1.6304e+00",
  chars! "1.4334e-01 1.5354e+00 1.6294e+00",
  chars! "1.4363e-01 1.5373e+00 1.6286e+00",
  chars! "1.4392e-01 1.5390e+00 1.6282e+00",
  chars! "1.4421e-01 1.5405e+00 1.6281e+00",
  chars! "1.4451e-01 1.5420e+00 1.6284e+00",
  chars! "1.4481e-01 1.5432e+00 1.6291e+00",
  chars! "1.4510e-01 1.5444e+00 1.6302e+00",
  chars! "1.4540e-01 1.5455e+00 1.6317e+00",
  chars! "1.4570e-01 1.5466e+00 1.6336e+00",
  chars! "1.4600e-01 1.5477e+00 1.6360e+00",
  chars! "1.4630e-01 1.5488e+00 1.6388e+00",
  chars! "1.4661e-01 1.5500e+00 1.6421e+00",
  chars! "1.4691e-01 1.5512e+00 1.6458e+00",
  chars! "1.4722e-01 1.5526e+00 1.6500e+00",
  chars! "1.4752e-01 1.5542e+00 1.6547e+00",
  chars! "1.4783e-01 1.5560e+00 1.6599e+00",
  chars! "1.4814e-01 1.5581e+00 1.6655e+00",
  chars! "1.4845e-01 1.5605e+00 1.6716e+00",
  chars! "1.4877e-01 1.5633e+00 1.6781e+00",
  chars! "1.4908e-01 1.5665e+00 1.6851e+00",
  chars! "1.4939e-01 1.5702e+00 1.6925e+00",
  chars! "1.4971e-01 1.5744e+00 1.7002e+00",
  chars! "1.5003e-01 1.5792e+00 1.7083e+00",
  chars! "1.5035e-01 1.5847e+00 1.7167e+00",
  chars! "1.5067e-01 1.5908e+00 1.7254e+00",
  chars! "1.5099e-01 1.5977e+00 1.7342e+00",
  chars! "1.5131e-01 1.6053e+00 1.7431e+00",
  chars! "1.5164e-01 1.6138e+00 1.7521e+00",
  chars! "1.5196e-01 1.6232e+00 1.7610e+00",
  chars! "1.5229e-01 1.6334e+00 1.7697e+00",
  chars! "1.5262e-01 1.6445e+00 1.7781e+00",
  chars! "1.5295e-01 1.6565e+00 1.7862e+00",
  chars! "1.5328e-01 1.6694e+00 1.7936e+00",
  chars! "1.5361e-01 1.6831e+00 1.8005e+00",
  chars! "1.5395e-01 1.6975e+00 1.8065e+00",
  chars! "1.5428e-01 1.7125e+00 1.8116e+00",
  chars! "1.5462e-01 1.7280e+00 1.8157e+00",
  chars! "1.5496e-01 1.7439e+00 1.8187e+00",
  chars! "1.5530e-01 1.7600e+00 1.8204e+00",
  chars! "1.5564e-01 1.7761e+00 1.8210e+00",
  chars! "1.5599e-01 1.7919e+00 1.8203e+00",
  chars! "1.5633e-01 1.8074e+00 1.8185e+00",
  chars! "1.5668e-01 1.8222e+00 1.8156e+00",
  chars! "1.5703e-01 1.8362e+00 1.8117e+00",
  chars! "1.5738e-01 1.8493e+00 1.8070e+00",
  chars! "1.5773e-01 1.8613e+00 1.8017e+00",
  chars! "1.5808e-01 1.8722e+00 1.7960e+00",
  chars! "1.5843e-01 1.8820e+00 1.7900e+00",
  chars! "1.5879e-01 1.8905e+00 1.7840e+00",
  chars! "1.5915e-01 1.8979e+00 1.7783e+00",
  chars! "1.5951e-01 1.9043e+00 1.7729e+00",
  chars! "1.5987e-01 1.9098e+00 1.7681e+00",
  chars! "1.6023e-01 1.9144e+00 1.7639e+00",
  chars! "1.6059e-01 1.9183e+00 1.7605e+00",
  chars! "1.6096e-01 1.9217e+00 1.7580e+00",
  chars! "1.6132e-01 1.9247e+00 1.7563e+00",
  chars! "1.6169e-01 1.9275e+00 1.7556e+00",
  chars! "1.6206e-01 1.9302e+00 1.7558e+00",
  chars! "1.6244e-01 1.9329e+00 1.7570e+00",
  chars! "1.6281e-01 1.9358e+00 1.7590e+00",
  chars! "1.6319e-01 1.9390e+00 1.7618e+00",
  chars! "1.6356e-01 1.9425e+00 1.7654e+00",
  chars! "1.6394e-01 1.9464e+00 1.7698e+00",
  chars! "1.6432e-01 1.9509e+00 1.7748e+00",
  chars! "1.6471e-01 1.9560e+00 1.7804e+00",
  chars! "1.6509e-01 1.9616e+00 1.7865e+00",
  chars! "1.6548e-01 1.9680e+00 1.7931e+00",
  chars! "1.6587e-01 1.9751e+00 1.8001e+00",
  chars! "1.6626e-01 1.9830e+00 1.8073e+00",
  chars! "1.6665e-01 1.9916e+00 1.8148e+00",
  chars! "1.6704e-01 2.0009e+00 1.8225e+00",
  chars! "1.6744e-01 2.0111e+00 1.8303e+00",
  chars! "1.6783e-01 2.0221e+00 1.8381e+00",
  chars! "1.6823e-01 2.0339e+00 1.8460e+00",
  chars! "1.6864e-01 2.0465e+00 1.8537e+00",
  chars! "1.6904e-01 2.0599e+00 1.8613e+00",
  chars! "1.6944e-01 2.0741e+00 1.8687e+00",
  chars! "1.6985e-01 2.0891e+00 1.8758e+00",
  chars! "1.7026e-01 2.1049e+00 1.8826e+00",
  chars! "1.7067e-01 2.1213e+00 1.8891e+00",
  chars! "1.7108e-01 2.1386e+00 1.8951e+00",
  chars! "1.7150e-01 2.1565e+00 1.9007e+00",
  chars! "1.7192e-01 2.1751e+00 1.9057e+00",
  chars! "1.7233e-01 2.1944e+00 1.9102e+00",
  chars! "1.7276e-01 2.2143e+00 1.9141e+00",
  chars! "1.7318e-01 2.2348e+00 1.9173e+00",
  chars! "1.7360e-01 2.2558e+00 1.9198e+00",
  chars! "1.7403e-01 2.2773e+00 1.9216e+00",
  chars! "1.7446e-01 2.2994e+00 1.9226e+00",
  chars! "1.7489e-01 2.3218e+00 1.9227e+00",
  chars! "1.7533e-01 2.3446e+00 1.9221e+00",
  chars! "1.7576e-01 2.3677e+00 1.9205e+00",
  chars! "1.7620e-01 2.3911e+00 1.9181e+00",
  chars! "1.7664e-01 2.4147e+00 1.9147e+00",
  chars! "1.7708e-01 2.4385e+00 1.9104e+00",
  chars! "1.7753e-01 2.4624e+00 1.9051e+00",
  chars! "1.7797e-01 2.4863e+00 1.8988e+00",
  chars! "1.7842e-01 2.5102e+00 1.8916e+00",
  chars! "1.7887e-01 2.5340e+00 1.8834e+00",
  chars! "1.7933e-01 2.5577e+00 1.8742e+00",
  chars! "1.7978e-01 2.5812e+00 1.8641e+00",
  chars! "1.8024e-01 2.6044e+00 1.8530e+00",
  chars! "1.8070e-01 2.6273e+00 1.8409e+00",
  chars! "1.8117e-01 2.6498e+00 1.8280e+00",
  chars! "1.8163e-01 2.6718e+00 1.8141e+00",
  chars! "1.8210e-01 2.6934e+00 1.7994e+00",
  chars! "1.8257e-01 2.7144e+00 1.7839e+00",
  chars! "1.8304e-01 2.7348e+00 1.7675e+00",
  chars! "1.8352e-01 2.7546e+00 1.7505e+00",
  chars! "1.8399e-01 2.7737e+00 1.7327e+00",
  chars! "1.8447e-01 2.7921e+00 1.7143e+00",
  chars! "1.8496e-01 2.8097e+00 1.6953e+00",
  chars! "1.8544e-01 2.8266e+00 1.6757e+00",
  chars! "1.8593e-01 2.8426e+00 1.6556e+00",
  chars! "1.8642e-01 2.8579e+00 1.6351e+00",
  chars! "1.8691e-01 2.8723e+00 1.6142e+00",
  chars! "1.8741e-01 2.8859e+00 1.5930e+00",
  chars! "1.8791e-01 2.8986e+00 1.5714e+00",
  chars! "1.8841e-01 2.9105e+00 1.5497e+00",
  chars! "1.8891e-01 2.9215e+00 1.5278e+00",
  chars! "1.8942e-01 2.9317e+00 1.5057e+00",
  chars! "1.8993e-01 2.9410e+00 1.4835e+00",
  chars! "1.9044e-01 2.9495e+00 1.4614e+00",
  chars! "1.9095e-01 2.9573e+00 1.4392e+00",
  chars! "1.9147e-01 2.9642e+00 1.4170e+00",
  chars! "1.9199e-01 2.9704e+00 1.3950e+00",
  chars! "1.9251e-01 2.9758e+00 1.3731e+00",
  chars! "1.9304e-01 2.9805e+00 1.3513e+00",
  chars! "1.9356e-01 2.9845e+00 1.3298e+00",
  chars! "1.9410e-01 2.9878e+00 1.3084e+00",
  chars! "1.9463e-01 2.9905e+00 1.2873e+00",
  chars! "1.9517e-01 2.9926e+00 1.2665e+00",
  chars! "1.9571e-01 2.9941e+00 1.2460e+00",
  chars! "1.9625e-01 2.9950e+00 1.2257e+00",
  chars! "1.9680e-01 2.9954e+00 1.2058e+00",
  chars! "1.9735e-01 2.9953e+00 1.1862e+00",
  chars! "1.9790e-01 2.9947e+00 1.1670e+00",
  chars! "1.9845e-01 2.9936e+00 1.1481e+00",
  chars! "1.9901e-01 2.9922e+00 1.1296e+00",
  chars! "1.9957e-01 2.9903e+00 1.1114e+00",
  chars! "2.0014e-01 2.9881e+00 1.0937e+00",
  chars! "2.0071e-01 2.9856e+00 1.0763e+00",
  chars! "2.0128e-01 2.9827e+00 1.0593e+00",
  chars! "2.0185e-01 2.9795e+00 1.0426e+00",
  chars! "2.0243e-01 2.9760e+00 1.0264e+00",
  chars! "2.0301e-01 2.9723e+00 1.0105e+00",
  chars! "2.0360e-01 2.9683e+00 9.9501e-01",
  chars! "2.0419e-01 2.9642e+00 9.7990e-01",
  chars! "2.0478e-01 2.9598e+00 9.6515e-01",
  chars! "2.0537e-01 2.9552e+00 9.5077e-01",
  chars! "2.0597e-01 2.9505e+00 9.3674e-01",
  chars! "2.0657e-01 2.9456e+00 9.2308e-01",
  chars! "2.0718e-01 2.9406e+00 9.0976e-01",
  chars! "2.0779e-01 2.9355e+00 8.9679e-01",
  chars! "2.0840e-01 2.9303e+00 8.8415e-01",
  chars! "2.0901e-01 2.9250e+00 8.7185e-01",
  chars! "2.0963e-01 2.9196e+00 8.5987e-01",
  chars! "2.1026e-01 2.9141e+00 8.4820e-01",
  chars! "2.1088e-01 2.9086e+00 8.3685e-01",
  chars! "2.1151e-01 2.9030e+00 8.2579e-01",
  chars! "2.1215e-01 2.8974e+00 8.1504e-01",
  chars! "2.1279e-01 2.8917e+00 8.0457e-01",
  chars! "2.1343e-01 2.8860e+00 7.9438e-01",
  chars! "2.1408e-01 2.8803e+00 7.8446e-01",
  chars! "2.1473e-01 2.8746e+00 7.7481e-01",
  chars! "2.1538e-01 2.8689e+00 7.6542e-01",
  chars! "2.1604e-01 2.8632e+00 7.5629e-01",
  chars! "2.1670e-01 2.8575e+00 7.4740e-01",
  chars! "2.1737e-01 2.8518e+00 7.3875e-01",
  chars! "2.1804e-01 2.8461e+00 7.3033e-01",
  chars! "2.1871e-01 2.8404e+00 7.2213e-01",
  chars! "2.1939e-01 2.8348e+00 7.1416e-01",
  chars! "2.2007e-01 2.8292e+00 7.0640e-01",
  chars! "2.2076e-01 2.8236e+00 6.9885e-01",
  chars! "2.2145e-01 2.8181e+00 6.9149e-01",
  chars! "2.2215e-01 2.8126e+00 6.8434e-01",
  chars! "2.2285e-01 2.8072e+00 6.7737e-01",
  chars! "2.2355e-01 2.8018e+00 6.7058e-01",
  chars! "2.2426e-01 2.7964e+00 6.6398e-01",
  chars! "2.2497e-01 2.7911e+00 6.5754e-01",
  chars! "2.2569e-01 2.7859e+00 6.5128e-01",
  chars! "2.2642e-01 2.7807e+00 6.4517e-01",
  chars! "2.2714e-01 2.7756e+00 6.3923e-01",
  chars! "2.2788e-01 2.7705e+00 6.3343e-01",
  chars! "2.2861e-01 2.7655e+00 6.2779e-01",
  chars! "2.2935e-01 2.7605e+00 6.2229e-01",
  chars! "2.3010e-01 2.7556e+00 6.1692e-01",
  chars! "2.3085e-01 2.7508e+00 6.1169e-01",
  chars! "2.3161e-01 2.7460e+00 6.0660e-01",
  chars! "2.3237e-01 2.7413e+00 6.0163e-01",
  chars! "2.3313e-01 2.7366e+00 5.9678e-01",
  chars! "2.3391e-01 2.7321e+00 5.9205e-01",
  chars! "2.3468e-01 2.7276e+00 5.8743e-01",
  chars! "2.3546e-01 2.7231e+00 5.8292e-01",
  chars! "2.3625e-01 2.7187e+00 5.7853e-01",
  chars! "2.3704e-01 2.7144e+00 5.7423e-01",
  chars! "2.3784e-01 2.7102e+00 5.7004e-01",
  chars! "2.3864e-01 2.7060e+00 5.6594e-01",
  chars! "2.3945e-01 2.7019e+00 5.6194e-01",
  chars! "2.4026e-01 2.6979e+00 5.5803e-01",
  chars! "2.4108e-01 2.6939e+00 5.5421e-01",
  chars! "2.4191e-01 2.6900e+00 5.5047e-01",
  chars! "2.4274e-01 2.6862e+00 5.4681e-01",
  chars! "2.4358e-01 2.6824e+00 5.4324e-01",
  chars! "2.4442e-01 2.6787e+00 5.3974e-01",
  chars! "2.4527e-01 2.6751e+00 5.3631e-01",
  chars! "2.4612e-01 2.6715e+00 5.3295e-01",
  chars! "2.4698e-01 2.6680e+00 5.2966e-01",
  chars! "2.4784e-01 2.6646e+00 5.2644e-01",
  chars! "2.4872e-01 2.6613e+00 5.2328e-01",
  chars! "2.4959e-01 2.6580e+00 5.2018e-01",
  chars! "2.5048e-01 2.6548e+00 5.1715e-01",
  chars! "2.5137e-01 2.6516e+00 5.1416e-01",
  chars! "2.5227e-01 2.6485e+00 5.1123e-01",
  chars! "2.5317e-01 2.6455e+00 5.0836e-01",
  chars! "2.5408e-01 2.6426e+00 5.0553e-01",
  chars! "2.5499e-01 2.6397e+00 5.0275e-01",
  chars! "2.5592e-01 2.6369e+00 5.0001e-01",
  chars! "2.5685e-01 2.6342e+00 4.9732e-01",
  chars! "2.5778e-01 2.6315e+00 4.9467e-01",
  chars! "2.5873e-01 2.6289e+00 4.9206e-01",
  chars! "2.5968e-01 2.6263e+00 4.8949e-01",
  chars! "2.6063e-01 2.6238e+00 4.8695e-01",
  chars! "2.6160e-01 2.6214e+00 4.8444e-01",
  chars! "2.6257e-01 2.6191e+00 4.8197e-01",
  chars! "2.6355e-01 2.6168e+00 4.7953e-01",
  chars! "2.6453e-01 2.6146e+00 4.7711e-01",
  chars! "2.6553e-01 2.6124e+00 4.7472e-01",
  chars! "2.6653e-01 2.6103e+00 4.7235e-01",
  chars! "2.6754e-01 2.6083e+00 4.7001e-01",
  chars! "2.6855e-01 2.6063e+00 4.6768e-01",
  chars! "2.6958e-01 2.6044e+00 4.6538e-01",
  chars! "2.7061e-01 2.6026e+00 4.6309e-01",
  chars! "2.7165e-01 2.6008e+00 4.6081e-01",
  chars! "2.7270e-01 2.5991e+00 4.5855e-01",
  chars! "2.7375e-01 2.5974e+00 4.5630e-01",
  chars! "2.7482e-01 2.5958e+00 4.5406e-01",
  chars! "2.7589e-01 2.5943e+00 4.5183e-01",
  chars! "2.7697e-01 2.5928e+00 4.4960e-01",
  chars! "2.7806e-01 2.5914e+00 4.4737e-01",
  chars! "2.7916e-01 2.5900e+00 4.4515e-01",
  chars! "2.8026e-01 2.5887e+00 4.4293e-01",
  chars! "2.8138e-01 2.5875e+00 4.4070e-01",
  chars! "2.8250e-01 2.5863e+00 4.3848e-01",
  chars! "2.8364e-01 2.5852e+00 4.3624e-01",
  chars! "2.8478e-01 2.5841e+00 4.3400e-01",
  chars! "2.8593e-01 2.5831e+00 4.3175e-01",
  chars! "2.8709e-01 2.5822e+00 4.2949e-01",
  chars! "2.8826e-01 2.5813e+00 4.2722e-01",
  chars! "2.8944e-01 2.5804e+00 4.2493e-01",
  chars! "2.9063e-01 2.5796e+00 4.2262e-01",
  chars! "2.9183e-01 2.5789e+00 4.2029e-01",
  chars! "2.9304e-01 2.5782e+00 4.1794e-01",
  chars! "2.9426e-01 2.5776e+00 4.1556e-01",
  chars! "2.9549e-01 2.5770e+00 4.1316e-01",
  chars! "2.9673e-01 2.5765e+00 4.1073e-01",
  chars! "2.9798e-01 2.5760e+00 4.0827e-01",
  chars! "2.9924e-01 2.5755e+00 4.0577e-01",
  chars! "3.0051e-01 2.5752e+00 4.0324e-01",
  chars! "3.0180e-01 2.5748e+00 4.0067e-01",
  chars! "3.0309e-01 2.5745e+00 3.9805e-01",
  chars! "3.0439e-01 2.5743e+00 3.9539e-01",
  chars! "3.0571e-01 2.5740e+00 3.9269e-01",
  chars! "3.0704e-01 2.5739e+00 3.8993e-01",
  chars! "3.0838e-01 2.5737e+00 3.8712e-01",
  chars! "3.0973e-01 2.5736e+00 3.8426e-01",
  chars! "3.1109e-01 2.5735e+00 3.8133e-01",
  chars! "3.1247e-01 2.5735e+00 3.7834e-01",
  chars! "3.1385e-01 2.5735e+00 3.7529e-01",
  chars! "3.1525e-01 2.5735e+00 3.7216e-01",
  chars! "3.1666e-01 2.5735e+00 3.6896e-01",
  chars! "3.1809e-01 2.5735e+00 3.6568e-01",
  chars! "3.1953e-01 2.5735e+00 3.6232e-01",
  chars! "3.2098e-01 2.5736e+00 3.5888e-01",
  chars! "3.2244e-01 2.5736e+00 3.5535e-01",
  chars! "3.2392e-01 2.5736e+00 3.5172e-01",
  chars! "3.2541e-01 2.5736e+00 3.4800e-01",
  chars! "3.2691e-01 2.5736e+00 3.4418e-01",
  chars! "3.2843e-01 2.5735e+00 3.4026e-01",
  chars! "3.2996e-01 2.5734e+00 3.3623e-01",
  chars! "3.3151e-01 2.5732e+00 3.3209e-01",
  chars! "3.3307e-01 2.5729e+00 3.2784e-01",
  chars! "3.3465e-01 2.5725e+00 3.2349e-01",
  chars! "3.3624e-01 2.5720e+00 3.1903e-01",
  chars! "3.3785e-01 2.5713e+00 3.1446e-01",
  chars! "3.3947e-01 2.5704e+00 3.0981e-01",
  chars! "3.4111e-01 2.5692e+00 3.0509e-01",
  chars! "3.4276e-01 2.5678e+00 3.0031e-01",
  chars! "3.4443e-01 2.5660e+00 2.9552e-01",
  chars! "3.4612e-01 2.5637e+00 2.9078e-01",
  chars! "3.4782e-01 2.5610e+00 2.8618e-01",
  chars! "3.4954e-01 2.5576e+00 2.8184e-01",
  chars! "3.5127e-01 2.5535e+00 2.7797e-01",
  chars! "3.5303e-01 2.5485e+00 2.7487e-01",
  chars! "3.5480e-01 2.5426e+00 2.7302e-01",
  chars! "3.5659e-01 2.5357e+00 2.7317e-01",
  chars! "3.5840e-01 2.5281e+00 2.7642e-01",
  chars! "3.6022e-01 2.5209e+00 2.8438e-01",
  chars! "3.6207e-01 2.5167e+00 2.9889e-01",
  chars! "3.6393e-01 2.5209e+00 3.2053e-01",
  chars! "3.6581e-01 2.5416e+00 3.4447e-01",
  chars! "3.6772e-01 2.5822e+00 3.5646e-01",
  chars! "3.6964e-01 2.6297e+00 3.4124e-01",
  chars! "3.7158e-01 2.6620e+00 3.0206e-01",
  chars! "3.7354e-01 2.6712e+00 2.5722e-01",
  chars! "3.7553e-01 2.6645e+00 2.1928e-01",
  chars! "3.7753e-01 2.6504e+00 1.9083e-01",
  chars! "3.7956e-01 2.6342e+00 1.7019e-01",
  chars! "3.8161e-01 2.6181e+00 1.5514e-01",
  chars! "3.8368e-01 2.6030e+00 1.4394e-01",
  chars! "3.8577e-01 2.5891e+00 1.3540e-01",
  chars! "3.8789e-01 2.5763e+00 1.2871e-01",
  chars! "3.9003e-01 2.5647e+00 1.2335e-01",
  chars! "3.9219e-01 2.5539e+00 1.1895e-01",
  chars! "3.9438e-01 2.5440e+00 1.1527e-01",
  chars! "3.9659e-01 2.5347e+00 1.1213e-01",
  chars! "3.9883e-01 2.5261e+00 1.0942e-01",
  chars! "4.0109e-01 2.5180e+00 1.0704e-01",
  chars! "4.0338e-01 2.5103e+00 1.0493e-01",
  chars! "4.0569e-01 2.5031e+00 1.0303e-01",
  chars! "4.0803e-01 2.4962e+00 1.0130e-01",
  chars! "4.1040e-01 2.4897e+00 9.9718e-02",
  chars! "4.1280e-01 2.4835e+00 9.8259e-02",
  chars! "4.1522e-01 2.4775e+00 9.6903e-02",
  chars! "4.1768e-01 2.4718e+00 9.5635e-02",
  chars! "4.2016e-01 2.4662e+00 9.4443e-02",
  chars! "4.2267e-01 2.4609e+00 9.3316e-02",
  chars! "4.2521e-01 2.4558e+00 9.2247e-02",
  chars! "4.2778e-01 2.4508e+00 9.1228e-02",
  chars! "4.3039e-01 2.4460e+00 9.0255e-02",
  chars! "4.3302e-01 2.4413e+00 8.9321e-02",
  chars! "4.3569e-01 2.4367e+00 8.8424e-02",
  chars! "4.3839e-01 2.4323e+00 8.7559e-02",
  chars! "4.4113e-01 2.4280e+00 8.6723e-02",
  chars! "4.4390e-01 2.4238e+00 8.5914e-02",
  chars! "4.4670e-01 2.4197e+00 8.5130e-02",
  chars! "4.4954e-01 2.4157e+00 8.4367e-02",
  chars! "4.5242e-01 2.4118e+00 8.3626e-02",
  chars! "4.5533e-01 2.4080e+00 8.2904e-02",
  chars! "4.5828e-01 2.4042e+00 8.2200e-02",
  chars! "4.6127e-01 2.4006e+00 8.1512e-02",
  chars! "4.6430e-01 2.3970e+00 8.0840e-02",
  chars! "4.6737e-01 2.3935e+00 8.0182e-02",
  chars! "4.7048e-01 2.3900e+00 7.9539e-02",
  chars! "4.7363e-01 2.3866e+00 7.8908e-02",
  chars! "4.7683e-01 2.3833e+00 7.8289e-02",
  chars! "4.8006e-01 2.3801e+00 7.7682e-02",
  chars! "4.8334e-01 2.3768e+00 7.7086e-02",
  chars! "4.8667e-01 2.3737e+00 7.6501e-02",
  chars! "4.9004e-01 2.3706e+00 7.5925e-02",
  chars! "4.9346e-01 2.3675e+00 7.5359e-02",
  chars! "4.9693e-01 2.3645e+00 7.4802e-02",
  chars! "5.0045e-01 2.3616e+00 7.4254e-02",
  chars! "5.0402e-01 2.3587e+00 7.3715e-02",
  chars! "5.0764e-01 2.3558e+00 7.3183e-02",
  chars! "5.1131e-01 2.3530e+00 7.2659e-02",
  chars! "5.1503e-01 2.3502e+00 7.2143e-02",
  chars! "5.1881e-01 2.3474e+00 7.1634e-02",
  chars! "5.2265e-01 2.3447e+00 7.1132e-02",
  chars! "5.2654e-01 2.3421e+00 7.0637e-02",
  chars! "5.3049e-01 2.3394e+00 7.0149e-02",
  chars! "5.3450e-01 2.3368e+00 6.9667e-02",
  chars! "5.3857e-01 2.3342e+00 6.9191e-02",
  chars! "5.4270e-01 2.3317e+00 6.8721e-02",
  chars! "5.4690e-01 2.3292e+00 6.8257e-02",
  chars! "5.5116e-01 2.3267e+00 6.7798e-02",
  chars! "5.5549e-01 2.3243e+00 6.7346e-02",
  chars! "5.5989e-01 2.3219e+00 6.6898e-02",
  chars! "5.6436e-01 2.3195e+00 6.6456e-02",
  chars! "5.6890e-01 2.3172e+00 6.6019e-02",
  chars! "5.7352e-01 2.3148e+00 6.5587e-02",
  chars! "5.7821e-01 2.3125e+00 6.5160e-02",
  chars! "5.8297e-01 2.3103e+00 6.4738e-02",
  chars! "5.8782e-01 2.3080e+00 6.4320e-02",
  chars! "5.9275e-01 2.3058e+00 6.3907e-02",
  chars! "5.9776e-01 2.3036e+00 6.3499e-02",
  chars! "6.0286e-01 2.3014e+00 6.3094e-02",
  chars! "6.0804e-01 2.2993e+00 6.2695e-02",
  chars! "6.1331e-01 2.2972e+00 6.2299e-02",
  chars! "6.1868e-01 2.2951e+00 6.1907e-02",
  chars! "6.2414e-01 2.2930e+00 6.1520e-02",
  chars! "6.2970e-01 2.2909e+00 6.1137e-02",
  chars! "6.3536e-01 2.2889e+00 6.0757e-02",
  chars! "6.4112e-01 2.2869e+00 6.0381e-02",
  chars! "6.4699e-01 2.2849e+00 6.0009e-02",
  chars! "6.5296e-01 2.2829e+00 5.9641e-02",
  chars! "6.5905e-01 2.2810e+00 5.9276e-02",
  chars! "6.6525e-01 2.2790e+00 5.8915e-02",
  chars! "6.7157e-01 2.2771e+00 5.8558e-02",
  chars! "6.7801e-01 2.2752e+00 5.8203e-02",
  chars! "6.8457e-01 2.2734e+00 5.7853e-02",
  chars! "6.9126e-01 2.2715e+00 5.7505e-02",
  chars! "6.9809e-01 2.2697e+00 5.7161e-02",
  chars! "7.0505e-01 2.2678e+00 5.6820e-02",
  chars! "7.1215e-01 2.2660e+00 5.6482e-02",
  chars! "7.1940e-01 2.2642e+00 5.6148e-02",
  chars! "7.2679e-01 2.2625e+00 5.5816e-02",
  chars! "7.3434e-01 2.2607e+00 5.5487e-02",
  chars! "7.4205e-01 2.2590e+00 5.5162e-02",
  chars! "7.4992e-01 2.2573e+00 5.4839e-02",
  chars! "7.5796e-01 2.2556e+00 5.4519e-02",
  chars! "7.6617e-01 2.2539e+00 5.4203e-02",
  chars! "7.7456e-01 2.2522e+00 5.3888e-02",
  chars! "7.8314e-01 2.2505e+00 5.3577e-02",
  chars! "7.9191e-01 2.2489e+00 5.3268e-02",
  chars! "8.0088e-01 2.2473e+00 5.2963e-02",
  chars! "8.1006e-01 2.2457e+00 5.2659e-02",
  chars! "8.1945e-01 2.2441e+00 5.2359e-02",
  chars! "8.2905e-01 2.2425e+00 5.2061e-02",
  chars! "8.3889e-01 2.2409e+00 5.1765e-02",
  chars! "8.4896e-01 2.2393e+00 5.1472e-02",
  chars! "8.5928e-01 2.2378e+00 5.1182e-02",
  chars! "8.6985e-01 2.2363e+00 5.0893e-02",
  chars! "8.8068e-01 2.2348e+00 5.0608e-02",
  chars! "8.9179e-01 2.2333e+00 5.0324e-02",
  chars! "9.0318e-01 2.2318e+00 5.0043e-02",
  chars! "9.1487e-01 2.2303e+00 4.9765e-02",
  chars! "9.2686e-01 2.2288e+00 4.9488e-02",
  chars! "9.3917e-01 2.2274e+00 4.9214e-02",
  chars! "9.5182e-01 2.2259e+00 4.8942e-02",
  chars! "9.6480e-01 2.2245e+00 4.8673e-02",
  chars! "9.7815e-01 2.2231e+00 4.8405e-02",
  chars! "9.9187e-01 2.2217e+00 4.8140e-02"]

/-- materials/data/GaP_Aspnes1983.yml:10-. -/
noncomputable def dataGaP : List (List Char) := [
  chars! "0.2066 1.309 2.690",
  chars! "0.2101 1.327 2.803",
  chars! "0.2138 1.348 2.934",
  chars! "0.2175 1.385 3.096",
  chars! "0.2214 1.444 3.297",
  chars! "0.2254 1.543 3.556",
  chars! "0.2296 1.778 3.889",
  chars! "0.2339 2.249 4.168",
  chars! "0.2384 2.825 4.170",
  chars! "0.2431 3.342 3.975",
  chars! "0.2480 3.661 3.631",
  chars! "0.2530 3.844 3.358",
  chars! "0.2583 4.062 3.096",
  chars! "0.2638 4.181 2.712",
  chars! "0.2695 4.113 2.371",
  chars! "0.2755 3.978 2.180",
  chars! "0.2818 3.867 2.090",
  chars! "0.2883 3.792 2.058",
  chars! "0.2952 3.754 2.063",
  chars! "0.3024 3.752 2.100",
  chars! "0.3100 3.790 2.171",
  chars! "0.3179 3.890 2.303",
  chars! "0.3263 4.196 2.562",
  chars! "0.3351 5.149 2.451",
  chars! "0.3444 5.406 1.368",
  chars! "0.3542 5.050 0.819",
  chars! "0.3647 4.751 0.568",
  chars! "0.3757 4.518 0.426",
  chars! "0.3875 4.339 0.337",
  chars! "0.3999 4.196 0.275",
  chars! "0.4133 4.081 0.224",
  chars! "0.4275 3.990 0.183",
  chars! "0.4428 3.919 0.118",
  chars! "0.4592 3.805 0.027",
  chars! "0.4769 3.691 0.011",
  chars! "0.4959 3.605 0.006",
  chars! "0.5166 3.535 0.004",
  chars! "0.5391 3.474 0.002",
  chars! "0.5636 3.421 0.000",
  chars! "0.5904 3.375 0.000",
  chars! "0.6199 3.334 0.000",
  chars! "0.6525 3.295 0.000",
  chars! "0.6888 3.262 0.000",
  chars! "0.7293 3.234 0.000",
  chars! "0.7749 3.209 0.000",
  chars! "0.8266 3.178 0.000"]

/-- materials/data/Ge_Nunley2016.yml:10-. -/
noncomputable def dataGe : List (List Char) := [
  chars! "1.879E-1 8.351E-1 2.567E+0",
  chars! "1.881E-1 8.394E-1 2.570E+0",
  chars! "1.884E-1 8.434E-1 2.573E+0",
  chars! "1.887E-1 8.475E-1 2.576E+0",
  chars! "1.890E-1 8.518E-1 2.579E+0",
  chars! "1.893E-1 8.558E-1 2.582E+0",
  chars! "1.896E-1 8.598E-1 2.585E+0",
  chars! "1.899E-1 8.640E-1 2.588E+0",
  chars! "1.902E-1 8.679E-1 2.592E+0",
  chars! "1.905E-1 8.720E-1 2.595E+0",
  chars! "1.907E-1 8.760E-1 2.598E+0",
  chars! "1.910E-1 8.800E-1 2.601E+0",
  chars! "1.913E-1 8.840E-1 2.604E+0",
  chars! "1.916E-1 8.880E-1 2.607E+0",
  chars! "1.919E-1 8.918E-1 2.611E+0",
  chars! "1.922E-1 8.958E-1 2.614E+0",
  chars! "1.925E-1 8.998E-1 2.617E+0",
  chars! "1.928E-1 9.035E-1 2.621E+0",
  chars! "1.931E-1 9.074E-1 2.624E+0",
  chars! "1.934E-1 9.113E-1 2.628E+0",
  chars! "1.937E-1 9.152E-1 2.631E+0",
  chars! "1.940E-1 9.189E-1 2.635E+0",
  chars! "1.943E-1 9.228E-1 2.638E+0",
  chars! "1.946E-1 9.265E-1 2.642E+0",
  chars! "1.949E-1 9.302E-1 2.646E+0",
  chars! "1.953E-1 9.340E-1 2.649E+0",
  chars! "1.956E-1 9.377E-1 2.653E+0",
  chars! "1.959E-1 9.414E-1 2.657E+0",
  chars! "1.962E-1 9.450E-1 2.661E+0",
  chars! "1.965E-1 9.487E-1 2.665E+0",
  chars! "1.968E-1 9.523E-1 2.669E+0",
  chars! "1.971E-1 9.560E-1 2.673E+0",
  chars! "1.974E-1 9.598E-1 2.676E+0",
  chars! "1.977E-1 9.633E-1 2.681E+0",
  chars! "1.981E-1 9.668E-1 2.686E+0",
  chars! "1.984E-1 9.705E-1 2.690E+0",
  chars! "1.987E-1 9.741E-1 2.695E+0",
  chars! "1.990E-1 9.779E-1 2.699E+0",
  chars! "1.993E-1 9.814E-1 2.704E+0",
  chars! "1.997E-1 9.851E-1 2.708E+0",
  chars! "2.000E-1 9.888E-1 2.713E+0",
  chars! "2.003E-1 9.925E-1 2.719E+0",
  chars! "2.006E-1 9.964E-1 2.724E+0",
  chars! "2.009E-1 1.000E+0 2.729E+0",
  chars! "2.013E-1 1.004E+0 2.734E+0",
  chars! "2.016E-1 1.008E+0 2.740E+0",
  chars! "2.019E-1 1.012E+0 2.746E+0",
  chars! "2.023E-1 1.016E+0 2.752E+0",
  chars! "2.026E-1 1.021E+0 2.757E+0",
  chars! "2.029E-1 1.025E+0 2.763E+0",
  chars! "2.033E-1 1.030E+0 2.770E+0",
  chars! "2.036E-1 1.034E+0 2.777E+0",
  chars! "2.039E-1 1.039E+0 2.783E+0",
  chars! "2.043E-1 1.045E+0 2.789E+0",
  chars! "2.046E-1 1.050E+0 2.796E+0",
  chars! "2.049E-1 1.056E+0 2.802E+0",
  chars! "2.053E-1 1.061E+0 2.809E+0",
  chars! "2.056E-1 1.067E+0 2.816E+0",
  chars! "2.060E-1 1.074E+0 2.823E+0",
  chars! "2.063E-1 1.080E+0 2.830E+0",
  chars! "2.066E-1 1.087E+0 2.837E+0",
  chars! "2.070E-1 1.094E+0 2.843E+0",
  chars! "2.073E-1 1.102E+0 2.850E+0",
  chars! "2.077E-1 1.109E+0 2.857E+0",
  chars! "2.080E-1 1.117E+0 2.863E+0",
  chars! "2.084E-1 1.125E+0 2.870E+0",
  chars! "2.087E-1 1.134E+0 2.876E+0",
  chars! "2.091E-1 1.143E+0 2.882E+0",
  chars! "2.094E-1 1.152E+0 2.888E+0",
  chars! "2.098E-1 1.161E+0 2.893E+0",
  chars! "2.101E-1 1.170E+0 2.899E+0",
  chars! "2.105E-1 1.180E+0 2.904E+0",
  chars! "2.109E-1 1.190E+0 2.908E+0",
  chars! "2.112E-1 1.200E+0 2.913E+0",
  chars! "2.116E-1 1.210E+0 2.917E+0",
  chars! "2.119E-1 1.220E+0 2.921E+0",
  chars! "2.123E-1 1.231E+0 2.924E+0",
  chars! "2.127E-1 1.241E+0 2.927E+0",
  chars! "2.130E-1 1.251E+0 2.930E+0",
  chars! "2.134E-1 1.262E+0 2.932E+0",
  chars! "2.138E-1 1.272E+0 2.934E+0",
  chars! "2.141E-1 1.283E+0 2.936E+0",
  chars! "2.145E-1 1.293E+0 2.936E+0",
  chars! "2.149E-1 1.303E+0 2.937E+0",
  chars! "2.153E-1 1.312E+0 2.938E+0",
  chars! "2.156E-1 1.322E+0 2.937E+0",
  chars! "2.160E-1 1.332E+0 2.937E+0",
  chars! "2.164E-1 1.341E+0 2.937E+0",
  chars! "2.168E-1 1.350E+0 2.936E+0",
  chars! "2.171E-1 1.358E+0 2.934E+0",
  chars! "2.175E-1 1.366E+0 2.933E+0",
  chars! "2.179E-1 1.375E+0 2.931E+0",
  chars! "2.183E-1 1.382E+0 2.930E+0",
  chars! "2.187E-1 1.389E+0 2.928E+0",
  chars! "2.191E-1 1.396E+0 2.926E+0",
  chars! "2.194E-1 1.402E+0 2.924E+0",
  chars! "2.198E-1 1.408E+0 2.922E+0",
  chars! "2.202E-1 1.414E+0 2.919E+0",
  chars! "2.206E-1 1.420E+0 2.917E+0",
  chars! "2.210E-1 1.425E+0 2.915E+0",
  chars! "2.214E-1 1.429E+0 2.913E+0",
  chars! "2.218E-1 1.433E+0 2.910E+0",
  chars! "2.222E-1 1.437E+0 2.908E+0",
  chars! "2.226E-1 1.440E+0 2.907E+0",
  chars! "2.230E-1 1.444E+0 2.905E+0",
  chars! "2.234E-1 1.446E+0 2.903E+0",
  chars! "2.238E-1 1.449E+0 2.902E+0",
  chars! "2.242E-1 1.451E+0 2.901E+0",
  chars! "2.246E-1 1.453E+0 2.899E+0",
  chars! "2.250E-1 1.455E+0 2.899E+0",
  chars! "2.254E-1 1.456E+0 2.898E+0",
  chars! "2.258E-1 1.457E+0 2.898E+0",
  chars! "2.262E-1 1.458E+0 2.898E+0",
  chars! "2.267E-1 1.459E+0 2.898E+0",
  chars! "2.271E-1 1.459E+0 2.898E+0",
  chars! "2.275E-1 1.460E+0 2.899E+0",
  chars! "2.279E-1 1.460E+0 2.900E+0",
  chars! "2.283E-1 1.460E+0 2.901E+0",
  chars! "2.288E-1 1.460E+0 2.903E+0",
  chars! "2.292E-1 1.460E+0 2.905E+0",
  chars! "2.296E-1 1.459E+0 2.907E+0",
  chars! "2.300E-1 1.459E+0 2.909E+0",
  chars! "2.305E-1 1.459E+0 2.912E+0",
  chars! "2.309E-1 1.458E+0 2.915E+0",
  chars! "2.313E-1 1.457E+0 2.919E+0",
  chars! "2.317E-1 1.457E+0 2.923E+0",
  chars! "2.322E-1 1.456E+0 2.927E+0",
  chars! "2.326E-1 1.456E+0 2.931E+0",
  chars! "2.331E-1 1.455E+0 2.935E+0",
  chars! "2.335E-1 1.455E+0 2.940E+0",
  chars! "2.339E-1 1.454E+0 2.945E+0",
  chars! "2.344E-1 1.453E+0 2.950E+0",
  chars! "2.348E-1 1.453E+0 2.956E+0",
  chars! "2.353E-1 1.452E+0 2.962E+0",
  chars! "2.357E-1 1.452E+0 2.968E+0",
  chars! "2.362E-1 1.451E+0 2.975E+0",
  chars! "2.366E-1 1.451E+0 2.982E+0",
  chars! "2.371E-1 1.450E+0 2.989E+0",
  chars! "2.375E-1 1.450E+0 2.996E+0",
  chars! "2.380E-1 1.450E+0 3.004E+0",
  chars! "2.384E-1 1.450E+0 3.012E+0",
  chars! "2.389E-1 1.450E+0 3.020E+0",
  chars! "2.394E-1 1.450E+0 3.028E+0",
  chars! "2.398E-1 1.450E+0 3.037E+0",
  chars! "2.403E-1 1.450E+0 3.046E+0",
  chars! "2.407E-1 1.451E+0 3.055E+0",
  chars! "2.412E-1 1.451E+0 3.065E+0",
  chars! "2.417E-1 1.452E+0 3.075E+0",
  chars! "2.422E-1 1.453E+0 3.085E+0",
  chars! "2.426E-1 1.454E+0 3.095E+0",
  chars! "2.431E-1 1.455E+0 3.106E+0",
  chars! "2.436E-1 1.456E+0 3.116E+0",
  chars! "2.441E-1 1.457E+0 3.127E+0",
  chars! "2.445E-1 1.459E+0 3.139E+0",
  chars! "2.450E-1 1.461E+0 3.151E+0",
  chars! "2.455E-1 1.463E+0 3.162E+0",
  chars! "2.460E-1 1.465E+0 3.174E+0",
  chars! "2.465E-1 1.467E+0 3.187E+0",
  chars! "2.470E-1 1.470E+0 3.199E+0",
  chars! "2.475E-1 1.472E+0 3.212E+0",
  chars! "2.480E-1 1.475E+0 3.225E+0",
  chars! "2.485E-1 1.478E+0 3.238E+0",
  chars! "2.490E-1 1.481E+0 3.252E+0",
  chars! "2.495E-1 1.485E+0 3.265E+0",
  chars! "2.500E-1 1.489E+0 3.279E+0",
  chars! "2.505E-1 1.493E+0 3.294E+0",
  chars! "2.510E-1 1.497E+0 3.308E+0",
  chars! "2.515E-1 1.502E+0 3.323E+0",
  chars! "2.520E-1 1.506E+0 3.337E+0",
  chars! "2.525E-1 1.511E+0 3.353E+0",
  chars! "2.530E-1 1.516E+0 3.368E+0",
  chars! "2.535E-1 1.522E+0 3.383E+0",
  chars! "2.541E-1 1.527E+0 3.399E+0",
  chars! "2.546E-1 1.534E+0 3.415E+0",
  chars! "2.551E-1 1.540E+0 3.431E+0",
  chars! "2.556E-1 1.546E+0 3.448E+0",
  chars! "2.562E-1 1.553E+0 3.464E+0",
  chars! "2.567E-1 1.560E+0 3.481E+0",
  chars! "2.572E-1 1.568E+0 3.498E+0",
  chars! "2.578E-1 1.575E+0 3.516E+0",
  chars! "2.583E-1 1.583E+0 3.533E+0",
  chars! "2.588E-1 1.592E+0 3.551E+0",
  chars! "2.594E-1 1.600E+0 3.569E+0",
  chars! "2.599E-1 1.609E+0 3.587E+0",
  chars! "2.605E-1 1.618E+0 3.606E+0",
  chars! "2.610E-1 1.627E+0 3.625E+0",
  chars! "2.616E-1 1.637E+0 3.644E+0",
  chars! "2.621E-1 1.647E+0 3.663E+0",
  chars! "2.627E-1 1.657E+0 3.683E+0",
  chars! "2.632E-1 1.667E+0 3.703E+0",
  chars! "2.638E-1 1.678E+0 3.724E+0",
  chars! "2.644E-1 1.689E+0 3.745E+0",
  chars! "2.649E-1 1.701E+0 3.766E+0",
  chars! "2.655E-1 1.712E+0 3.788E+0",
  chars! "2.661E-1 1.724E+0 3.810E+0",
  chars! "2.666E-1 1.737E+0 3.833E+0",
  chars! "2.672E-1 1.749E+0 3.857E+0",
  chars! "2.678E-1 1.762E+0 3.882E+0",
  chars! "2.684E-1 1.776E+0 3.907E+0",
  chars! "2.689E-1 1.791E+0 3.933E+0",
  chars! "2.695E-1 1.806E+0 3.961E+0",
  chars! "2.701E-1 1.822E+0 3.989E+0",
  chars! "2.707E-1 1.839E+0 4.019E+0",
  chars! "2.713E-1 1.857E+0 4.050E+0",
  chars! "2.719E-1 1.876E+0 4.082E+0",
  chars! "2.725E-1 1.898E+0 4.116E+0",
  chars! "2.731E-1 1.921E+0 4.151E+0",
  chars! "2.737E-1 1.947E+0 4.187E+0",
  chars! "2.743E-1 1.975E+0 4.224E+0",
  chars! "2.749E-1 2.006E+0 4.262E+0",
  chars! "2.755E-1 2.041E+0 4.300E+0",
  chars! "2.761E-1 2.079E+0 4.339E+0",
  chars! "2.768E-1 2.120E+0 4.378E+0",
  chars! "2.774E-1 2.166E+0 4.416E+0",
  chars! "2.780E-1 2.216E+0 4.454E+0",
  chars! "2.786E-1 2.270E+0 4.489E+0",
  chars! "2.792E-1 2.329E+0 4.523E+0",
  chars! "2.799E-1 2.391E+0 4.554E+0",
  chars! "2.805E-1 2.457E+0 4.581E+0",
  chars! "2.811E-1 2.527E+0 4.604E+0",
  chars! "2.818E-1 2.600E+0 4.624E+0",
  chars! "2.824E-1 2.676E+0 4.638E+0",
  chars! "2.831E-1 2.754E+0 4.647E+0",
  chars! "2.837E-1 2.833E+0 4.651E+0",
  chars! "2.844E-1 2.913E+0 4.648E+0",
  chars! "2.850E-1 2.993E+0 4.640E+0",
  chars! "2.857E-1 3.073E+0 4.626E+0",
  chars! "2.863E-1 3.152E+0 4.606E+0",
  chars! "2.870E-1 3.228E+0 4.580E+0",
  chars! "2.877E-1 3.302E+0 4.549E+0",
  chars! "2.883E-1 3.372E+0 4.513E+0",
  chars! "2.890E-1 3.439E+0 4.473E+0",
  chars! "2.897E-1 3.501E+0 4.429E+0",
  chars! "2.904E-1 3.559E+0 4.381E+0",
  chars! "2.910E-1 3.613E+0 4.331E+0",
  chars! "2.917E-1 3.661E+0 4.279E+0",
  chars! "2.924E-1 3.704E+0 4.226E+0",
  chars! "2.931E-1 3.742E+0 4.172E+0",
  chars! "2.938E-1 3.776E+0 4.118E+0",
  chars! "2.945E-1 3.805E+0 4.064E+0",
  chars! "2.952E-1 3.829E+0 4.012E+0",
  chars! "2.959E-1 3.850E+0 3.961E+0",
  chars! "2.966E-1 3.867E+0 3.911E+0",
  chars! "2.973E-1 3.882E+0 3.863E+0",
  chars! "2.980E-1 3.893E+0 3.818E+0",
  chars! "2.988E-1 3.903E+0 3.774E+0",
  chars! "2.995E-1 3.910E+0 3.733E+0",
  chars! "3.002E-1 3.916E+0 3.694E+0",
  chars! "3.009E-1 3.921E+0 3.658E+0",
  chars! "3.017E-1 3.925E+0 3.623E+0",
  chars! "3.024E-1 3.929E+0 3.590E+0",
  chars! "3.031E-1 3.932E+0 3.559E+0",
  chars! "3.039E-1 3.935E+0 3.530E+0",
  chars! "3.046E-1 3.938E+0 3.502E+0",
  chars! "3.054E-1 3.941E+0 3.475E+0",
  chars! "3.061E-1 3.944E+0 3.449E+0",
  chars! "3.069E-1 3.947E+0 3.425E+0",
  chars! "3.077E-1 3.950E+0 3.401E+0",
  chars! "3.084E-1 3.953E+0 3.377E+0",
  chars! "3.092E-1 3.957E+0 3.355E+0",
  chars! "3.100E-1 3.960E+0 3.333E+0",
  chars! "3.107E-1 3.963E+0 3.311E+0",
  chars! "3.115E-1 3.967E+0 3.290E+0",
  chars! "3.123E-1 3.970E+0 3.270E+0",
  chars! "3.131E-1 3.973E+0 3.249E+0",
  chars! "3.139E-1 3.977E+0 3.229E+0",
  chars! "3.147E-1 3.980E+0 3.210E+0",
  chars! "3.155E-1 3.983E+0 3.191E+0",
  chars! "3.163E-1 3.986E+0 3.172E+0",
  chars! "3.171E-1 3.989E+0 3.153E+0",
  chars! "3.179E-1 3.992E+0 3.135E+0",
  chars! "3.187E-1 3.994E+0 3.117E+0",
  chars! "3.195E-1 3.997E+0 3.099E+0",
  chars! "3.204E-1 3.999E+0 3.082E+0",
  chars! "3.212E-1 4.002E+0 3.065E+0",
  chars! "3.220E-1 4.004E+0 3.048E+0",
  chars! "3.229E-1 4.006E+0 3.031E+0",
  chars! "3.237E-1 4.008E+0 3.015E+0",
  chars! "3.246E-1 4.010E+0 2.999E+0",
  chars! "3.254E-1 4.011E+0 2.984E+0",
  chars! "3.263E-1 4.013E+0 2.969E+0",
  chars! "3.271E-1 4.015E+0 2.954E+0",
  chars! "3.280E-1 4.016E+0 2.939E+0",
  chars! "3.289E-1 4.018E+0 2.925E+0",
  chars! "3.297E-1 4.019E+0 2.911E+0",
  chars! "3.306E-1 4.020E+0 2.897E+0",
  chars! "3.315E-1 4.022E+0 2.884E+0",
  chars! "3.324E-1 4.023E+0 2.871E+0",
  chars! "3.333E-1 4.024E+0 2.858E+0",
  chars! "3.342E-1 4.025E+0 2.845E+0",
  chars! "3.351E-1 4.026E+0 2.833E+0",
  chars! "3.360E-1 4.028E+0 2.821E+0",
  chars! "3.369E-1 4.029E+0 2.810E+0",
  chars! "3.378E-1 4.030E+0 2.798E+0",
  chars! "3.388E-1 4.031E+0 2.787E+0",
  chars! "3.397E-1 4.033E+0 2.777E+0",
  chars! "3.406E-1 4.034E+0 2.766E+0",
  chars! "3.416E-1 4.036E+0 2.756E+0",
  chars! "3.425E-1 4.037E+0 2.746E+0",
  chars! "3.434E-1 4.039E+0 2.736E+0",
  chars! "3.444E-1 4.041E+0 2.727E+0",
  chars! "3.454E-1 4.043E+0 2.718E+0",
  chars! "3.463E-1 4.045E+0 2.709E+0",
  chars! "3.473E-1 4.047E+0 2.700E+0",
  chars! "3.483E-1 4.050E+0 2.692E+0",
  chars! "3.493E-1 4.053E+0 2.684E+0",
  chars! "3.502E-1 4.056E+0 2.675E+0",
  chars! "3.512E-1 4.059E+0 2.667E+0",
  chars! "3.522E-1 4.063E+0 2.659E+0",
  chars! "3.532E-1 4.067E+0 2.652E+0",
  chars! "3.542E-1 4.071E+0 2.644E+0",
  chars! "3.553E-1 4.076E+0 2.636E+0",
  chars! "3.563E-1 4.081E+0 2.628E+0",
  chars! "3.573E-1 4.086E+0 2.620E+0",
  chars! "3.583E-1 4.092E+0 2.612E+0",
  chars! "3.594E-1 4.098E+0 2.604E+0",
  chars! "3.604E-1 4.104E+0 2.595E+0",
  chars! "3.615E-1 4.111E+0 2.586E+0",
  chars! "3.625E-1 4.117E+0 2.577E+0",
  chars! "3.636E-1 4.124E+0 2.567E+0",
  chars! "3.647E-1 4.131E+0 2.557E+0",
  chars! "3.657E-1 4.138E+0 2.546E+0",
  chars! "3.668E-1 4.144E+0 2.535E+0",
  chars! "3.679E-1 4.151E+0 2.523E+0",
  chars! "3.690E-1 4.157E+0 2.511E+0",
  chars! "3.701E-1 4.163E+0 2.499E+0",
  chars! "3.712E-1 4.168E+0 2.486E+0",
  chars! "3.723E-1 4.173E+0 2.473E+0",
  chars! "3.734E-1 4.177E+0 2.459E+0",
  chars! "3.746E-1 4.181E+0 2.446E+0",
  chars! "3.757E-1 4.184E+0 2.433E+0",
  chars! "3.769E-1 4.187E+0 2.421E+0",
  chars! "3.780E-1 4.189E+0 2.408E+0",
  chars! "3.792E-1 4.191E+0 2.396E+0",
  chars! "3.803E-1 4.194E+0 2.384E+0",
  chars! "3.815E-1 4.196E+0 2.372E+0",
  chars! "3.827E-1 4.199E+0 2.360E+0",
  chars! "3.839E-1 4.202E+0 2.348E+0",
  chars! "3.850E-1 4.204E+0 2.336E+0",
  chars! "3.862E-1 4.206E+0 2.323E+0",
  chars! "3.875E-1 4.208E+0 2.310E+0",
  chars! "3.887E-1 4.210E+0 2.297E+0",
  chars! "3.899E-1 4.211E+0 2.283E+0",
  chars! "3.911E-1 4.211E+0 2.269E+0",
  chars! "3.924E-1 4.211E+0 2.256E+0",
  chars! "3.936E-1 4.209E+0 2.242E+0",
  chars! "3.949E-1 4.207E+0 2.228E+0",
  chars! "3.961E-1 4.205E+0 2.215E+0",
  chars! "3.974E-1 4.201E+0 2.202E+0",
  chars! "3.987E-1 4.197E+0 2.190E+0",
  chars! "3.999E-1 4.192E+0 2.178E+0",
  chars! "4.012E-1 4.187E+0 2.167E+0",
  chars! "4.025E-1 4.181E+0 2.157E+0",
  chars! "4.039E-1 4.175E+0 2.147E+0",
  chars! "4.052E-1 4.168E+0 2.138E+0",
  chars! "4.065E-1 4.161E+0 2.131E+0",
  chars! "4.078E-1 4.154E+0 2.124E+0",
  chars! "4.092E-1 4.147E+0 2.117E+0",
  chars! "4.105E-1 4.140E+0 2.112E+0",
  chars! "4.119E-1 4.133E+0 2.107E+0",
  chars! "4.133E-1 4.126E+0 2.104E+0",
  chars! "4.147E-1 4.119E+0 2.101E+0",
  chars! "4.161E-1 4.113E+0 2.099E+0",
  chars! "4.175E-1 4.107E+0 2.097E+0",
  chars! "4.189E-1 4.101E+0 2.097E+0",
  chars! "4.203E-1 4.096E+0 2.097E+0",
  chars! "4.217E-1 4.091E+0 2.097E+0",
  chars! "4.232E-1 4.086E+0 2.098E+0",
  chars! "4.246E-1 4.082E+0 2.100E+0",
  chars! "4.261E-1 4.079E+0 2.102E+0",
  chars! "4.275E-1 4.076E+0 2.105E+0",
  chars! "4.290E-1 4.073E+0 2.107E+0",
  chars! "4.305E-1 4.071E+0 2.111E+0",
  chars! "4.320E-1 4.070E+0 2.115E+0",
  chars! "4.335E-1 4.069E+0 2.119E+0",
  chars! "4.350E-1 4.068E+0 2.123E+0",
  chars! "4.366E-1 4.069E+0 2.127E+0",
  chars! "4.381E-1 4.069E+0 2.132E+0",
  chars! "4.397E-1 4.071E+0 2.137E+0",
  chars! "4.412E-1 4.072E+0 2.142E+0",
  chars! "4.428E-1 4.075E+0 2.147E+0",
  chars! "4.444E-1 4.077E+0 2.152E+0",
  chars! "4.460E-1 4.081E+0 2.158E+0",
  chars! "4.476E-1 4.084E+0 2.164E+0",
  chars! "4.492E-1 4.089E+0 2.169E+0",
  chars! "4.509E-1 4.094E+0 2.175E+0",
  chars! "4.525E-1 4.099E+0 2.181E+0",
  chars! "4.542E-1 4.105E+0 2.187E+0",
  chars! "4.558E-1 4.111E+0 2.193E+0",
  chars! "4.575E-1 4.117E+0 2.199E+0",
  chars! "4.592E-1 4.125E+0 2.204E+0",
  chars! "4.609E-1 4.132E+0 2.211E+0",
  chars! "4.626E-1 4.140E+0 2.217E+0",
  chars! "4.644E-1 4.149E+0 2.223E+0",
  chars! "4.661E-1 4.158E+0 2.229E+0",
  chars! "4.679E-1 4.167E+0 2.235E+0",
  chars! "4.696E-1 4.177E+0 2.242E+0",
  chars! "4.714E-1 4.188E+0 2.248E+0",
  chars! "4.732E-1 4.199E+0 2.254E+0",
  chars! "4.750E-1 4.210E+0 2.261E+0",
  chars! "4.769E-1 4.222E+0 2.267E+0",
  chars! "4.787E-1 4.235E+0 2.274E+0",
  chars! "4.806E-1 4.248E+0 2.280E+0",
  chars! "4.824E-1 4.261E+0 2.287E+0",
  chars! "4.843E-1 4.276E+0 2.294E+0",
  chars! "4.862E-1 4.290E+0 2.300E+0",
  chars! "4.881E-1 4.306E+0 2.307E+0",
  chars! "4.901E-1 4.322E+0 2.314E+0",
  chars! "4.920E-1 4.339E+0 2.322E+0",
  chars! "4.940E-1 4.357E+0 2.329E+0",
  chars! "4.959E-1 4.376E+0 2.337E+0",
  chars! "4.979E-1 4.395E+0 2.345E+0",
  chars! "4.999E-1 4.416E+0 2.353E+0",
  chars! "5.020E-1 4.439E+0 2.361E+0",
  chars! "5.040E-1 4.463E+0 2.369E+0",
  chars! "5.061E-1 4.488E+0 2.378E+0",
  chars! "5.081E-1 4.516E+0 2.386E+0",
  chars! "5.102E-1 4.546E+0 2.394E+0",
  chars! "5.123E-1 4.578E+0 2.400E+0",
  chars! "5.145E-1 4.613E+0 2.406E+0",
  chars! "5.166E-1 4.650E+0 2.410E+0",
  chars! "5.188E-1 4.690E+0 2.411E+0",
  chars! "5.209E-1 4.731E+0 2.410E+0",
  chars! "5.231E-1 4.775E+0 2.405E+0",
  chars! "5.254E-1 4.820E+0 2.397E+0",
  chars! "5.276E-1 4.865E+0 2.385E+0",
  chars! "5.298E-1 4.910E+0 2.368E+0",
  chars! "5.321E-1 4.953E+0 2.348E+0",
  chars! "5.344E-1 4.996E+0 2.323E+0",
  chars! "5.367E-1 5.035E+0 2.296E+0",
  chars! "5.391E-1 5.072E+0 2.265E+0",
  chars! "5.414E-1 5.105E+0 2.233E+0",
  chars! "5.438E-1 5.134E+0 2.200E+0",
  chars! "5.462E-1 5.160E+0 2.167E+0",
  chars! "5.486E-1 5.183E+0 2.134E+0",
  chars! "5.510E-1 5.202E+0 2.104E+0",
  chars! "5.535E-1 5.219E+0 2.076E+0",
  chars! "5.560E-1 5.236E+0 2.051E+0",
  chars! "5.585E-1 5.252E+0 2.031E+0",
  chars! "5.610E-1 5.270E+0 2.014E+0",
  chars! "5.636E-1 5.292E+0 2.000E+0",
  chars! "5.661E-1 5.319E+0 1.989E+0",
  chars! "5.687E-1 5.353E+0 1.979E+0",
  chars! "5.714E-1 5.396E+0 1.966E+0",
  chars! "5.740E-1 5.446E+0 1.948E+0",
  chars! "5.767E-1 5.504E+0 1.920E+0",
  chars! "5.794E-1 5.564E+0 1.880E+0",
  chars! "5.821E-1 5.625E+0 1.826E+0",
  chars! "5.848E-1 5.680E+0 1.759E+0",
  chars! "5.876E-1 5.725E+0 1.681E+0",
  chars! "5.904E-1 5.758E+0 1.595E+0",
  chars! "5.932E-1 5.778E+0 1.505E+0",
  chars! "5.961E-1 5.785E+0 1.416E+0",
  chars! "5.990E-1 5.780E+0 1.329E+0",
  chars! "6.019E-1 5.766E+0 1.249E+0",
  chars! "6.048E-1 5.745E+0 1.175E+0",
  chars! "6.078E-1 5.719E+0 1.108E+0",
  chars! "6.108E-1 5.690E+0 1.047E+0",
  chars! "6.138E-1 5.660E+0 9.913E-1",
  chars! "6.168E-1 5.628E+0 9.408E-1",
  chars! "6.199E-1 5.596E+0 8.947E-1",
  chars! "6.230E-1 5.564E+0 8.524E-1",
  chars! "6.262E-1 5.532E+0 8.137E-1",
  chars! "6.294E-1 5.500E+0 7.780E-1",
  chars! "6.326E-1 5.468E+0 7.453E-1",
  chars! "6.358E-1 5.437E+0 7.151E-1",
  chars! "6.391E-1 5.407E+0 6.874E-1",
  chars! "6.424E-1 5.377E+0 6.618E-1",
  chars! "6.458E-1 5.348E+0 6.382E-1",
  chars! "6.491E-1 5.319E+0 6.164E-1",
  chars! "6.525E-1 5.292E+0 5.961E-1",
  chars! "6.560E-1 5.265E+0 5.774E-1",
  chars! "6.595E-1 5.239E+0 5.599E-1",
  chars! "6.630E-1 5.214E+0 5.435E-1",
  chars! "6.666E-1 5.190E+0 5.282E-1",
  chars! "6.702E-1 5.167E+0 5.137E-1",
  chars! "6.738E-1 5.144E+0 5.001E-1",
  chars! "6.775E-1 5.122E+0 4.871E-1",
  chars! "6.812E-1 5.101E+0 4.748E-1",
  chars! "6.850E-1 5.081E+0 4.630E-1",
  chars! "6.888E-1 5.061E+0 4.517E-1",
  chars! "6.926E-1 5.041E+0 4.409E-1",
  chars! "6.965E-1 5.022E+0 4.305E-1",
  chars! "7.005E-1 5.004E+0 4.204E-1",
  chars! "7.045E-1 4.986E+0 4.108E-1",
  chars! "7.085E-1 4.969E+0 4.015E-1",
  chars! "7.126E-1 4.951E+0 3.925E-1",
  chars! "7.167E-1 4.935E+0 3.838E-1",
  chars! "7.208E-1 4.918E+0 3.755E-1",
  chars! "7.251E-1 4.902E+0 3.674E-1",
  chars! "7.293E-1 4.887E+0 3.597E-1",
  chars! "7.336E-1 4.871E+0 3.522E-1",
  chars! "7.380E-1 4.856E+0 3.449E-1",
  chars! "7.424E-1 4.841E+0 3.380E-1",
  chars! "7.469E-1 4.827E+0 3.313E-1",
  chars! "7.514E-1 4.812E+0 3.248E-1",
  chars! "7.560E-1 4.798E+0 3.186E-1",
  chars! "7.606E-1 4.785E+0 3.126E-1",
  chars! "7.653E-1 4.771E+0 3.068E-1",
  chars! "7.701E-1 4.758E+0 3.012E-1",
  chars! "7.749E-1 4.745E+0 2.958E-1",
  chars! "7.798E-1 4.733E+0 2.906E-1",
  chars! "7.847E-1 4.721E+0 2.855E-1",
  chars! "7.897E-1 4.708E+0 2.807E-1",
  chars! "7.948E-1 4.697E+0 2.760E-1",
  chars! "7.999E-1 4.685E+0 2.714E-1",
  chars! "8.051E-1 4.674E+0 2.670E-1",
  chars! "8.104E-1 4.663E+0 2.628E-1",
  chars! "8.157E-1 4.652E+0 2.587E-1",
  chars! "8.211E-1 4.641E+0 2.547E-1",
  chars! "8.266E-1 4.631E+0 2.508E-1",
  chars! "8.321E-1 4.621E+0 2.470E-1",
  chars! "8.377E-1 4.611E+0 2.433E-1",
  chars! "8.434E-1 4.601E+0 2.397E-1",
  chars! "8.492E-1 4.591E+0 2.362E-1",
  chars! "8.551E-1 4.582E+0 2.328E-1",
  chars! "8.610E-1 4.573E+0 2.295E-1",
  chars! "8.670E-1 4.564E+0 2.262E-1",
  chars! "8.731E-1 4.555E+0 2.230E-1",
  chars! "8.793E-1 4.546E+0 2.199E-1",
  chars! "8.856E-1 4.538E+0 2.168E-1",
  chars! "8.920E-1 4.530E+0 2.137E-1",
  chars! "8.984E-1 4.522E+0 2.108E-1",
  chars! "9.050E-1 4.514E+0 2.078E-1",
  chars! "9.116E-1 4.506E+0 2.049E-1",
  chars! "9.184E-1 4.499E+0 2.020E-1",
  chars! "9.253E-1 4.492E+0 1.991E-1",
  chars! "9.322E-1 4.484E+0 1.963E-1",
  chars! "9.393E-1 4.477E+0 1.935E-1",
  chars! "9.464E-1 4.470E+0 1.907E-1",
  chars! "9.537E-1 4.464E+0 1.880E-1",
  chars! "9.611E-1 4.457E+0 1.852E-1",
  chars! "9.686E-1 4.450E+0 1.825E-1",
  chars! "9.763E-1 4.444E+0 1.797E-1",
  chars! "9.840E-1 4.438E+0 1.770E-1",
  chars! "9.919E-1 4.432E+0 1.743E-1",
  chars! "9.999E-1 4.426E+0 1.716E-1",
  chars! "1.008E+0 4.420E+0 1.689E-1",
  chars! "1.016E+0 4.414E+0 1.661E-1",
  chars! "1.025E+0 4.408E+0 1.634E-1",
  chars! "1.033E+0 4.403E+0 1.607E-1",
  chars! "1.042E+0 4.397E+0 1.580E-1",
  chars! "1.051E+0 4.392E+0 1.553E-1",
  chars! "1.060E+0 4.387E+0 1.525E-1",
  chars! "1.069E+0 4.382E+0 1.498E-1",
  chars! "1.078E+0 4.377E+0 1.470E-1",
  chars! "1.088E+0 4.372E+0 1.442E-1",
  chars! "1.097E+0 4.368E+0 1.412E-1",
  chars! "1.107E+0 4.364E+0 1.378E-1",
  chars! "1.117E+0 4.360E+0 1.338E-1",
  chars! "1.127E+0 4.355E+0 1.292E-1",
  chars! "1.137E+0 4.350E+0 1.245E-1",
  chars! "1.148E+0 4.344E+0 1.204E-1",
  chars! "1.159E+0 4.337E+0 1.171E-1",
  chars! "1.170E+0 4.331E+0 1.143E-1",
  chars! "1.181E+0 4.326E+0 1.118E-1",
  chars! "1.192E+0 4.320E+0 1.093E-1",
  chars! "1.204E+0 4.315E+0 1.068E-1",
  chars! "1.216E+0 4.310E+0 1.044E-1",
  chars! "1.228E+0 4.306E+0 1.019E-1",
  chars! "1.240E+0 4.301E+0 9.945E-2",
  chars! "1.252E+0 4.296E+0 9.698E-2",
  chars! "1.265E+0 4.292E+0 9.449E-2",
  chars! "1.278E+0 4.287E+0 9.200E-2",
  chars! "1.292E+0 4.283E+0 8.950E-2",
  chars! "1.305E+0 4.279E+0 8.699E-2",
  chars! "1.319E+0 4.275E+0 8.447E-2",
  chars! "1.333E+0 4.271E+0 8.194E-2",
  chars! "1.348E+0 4.267E+0 7.941E-2",
  chars! "1.362E+0 4.263E+0 7.687E-2",
  chars! "1.378E+0 4.259E+0 7.433E-2",
  chars! "1.393E+0 4.256E+0 7.180E-2",
  chars! "1.409E+0 4.253E+0 6.928E-2",
  chars! "1.425E+0 4.249E+0 6.677E-2",
  chars! "1.442E+0 4.246E+0 6.429E-2",
  chars! "1.459E+0 4.244E+0 6.183E-2",
  chars! "1.476E+0 4.242E+0 5.941E-2",
  chars! "1.494E+0 4.241E+0 5.700E-2",
  chars! "1.512E+0 4.243E+0 5.406E-2",
  chars! "1.531E+0 4.249E+0 4.564E-2",
  chars! "1.550E+0 4.250E+0 2.519E-2",
  chars! "1.569E+0 4.234E+0 7.651E-3",
  chars! "1.590E+0 4.216E+0 2.758E-3",
  chars! "1.610E+0 4.204E+0 1.915E-3",
  chars! "1.631E+0 4.194E+0 1.465E-3",
  chars! "1.653E+0 4.186E+0 1.106E-3",
  chars! "1.675E+0 4.178E+0 8.197E-4",
  chars! "1.698E+0 4.171E+0 5.967E-4",
  chars! "1.722E+0 4.164E+0 4.261E-4",
  chars! "1.746E+0 4.158E+0 2.984E-4",
  chars! "1.771E+0 4.152E+0 2.048E-4",
  chars! "1.797E+0 4.146E+0 1.376E-4",
  chars! "1.823E+0 4.141E+0 9.060E-5",
  chars! "1.851E+0 4.136E+0 5.835E-5",
  chars! "1.879E+0 4.131E+0 3.677E-5",
  chars! "1.907E+0 4.126E+0 2.267E-5",
  chars! "1.937E+0 4.122E+0 1.366E-5",
  chars! "1.968E+0 4.117E+0 8.048E-6",
  chars! "2.000E+0 4.113E+0 4.634E-6",
  chars! "2.033E+0 4.109E+0 2.607E-6",
  chars! "2.066E+0 4.105E+0 1.433E-6",
  chars! "2.101E+0 4.101E+0 7.691E-7",
  chars! "2.138E+0 4.097E+0 4.043E-7",
  chars! "2.175E+0 4.094E+0 2.065E-7",
  chars! "2.214E+0 4.090E+0 0.000E+0",
  chars! "2.254E+0 4.087E+0 0.000E+0",
  chars! "2.296E+0 4.083E+0 0.000E+0",
  chars! "2.339E+0 4.080E+0 0.000E+0",
  chars! "2.384E+0 4.077E+0 0.000E+0",
  chars! "2.431E+0 4.074E+0 0.000E+0",
  chars! "2.480E+0 4.071E+0 0.000E+0"]

/-- materials/data/InAs_Aspnes1983.yml:10-. -/
noncomputable def dataInAs : List (List Char) := [
  chars! "0.2066 1.434 2.112",
  chars! "0.2101 1.383 2.084",
  chars! "0.2138 1.333 2.102",
  chars! "0.2175 1.293 2.163",
  chars! "0.2214 1.276 2.248",
  chars! "0.2254 1.282 2.344",
  chars! "0.2296 1.312 2.449",
  chars! "0.2339 1.366 2.555",
  chars! "0.2384 1.436 2.646",
  chars! "0.2431 1.484 2.732",
  chars! "0.2480 1.524 2.871",
  chars! "0.2530 1.608 3.081",
  chars! "0.2583 1.803 3.349",
  chars! "0.2638 2.205 3.575",
  chars! "0.2695 2.705 3.581",
  chars! "0.2755 3.194 3.445",
  chars! "0.2818 3.644 3.042",
  chars! "0.2883 3.761 2.478",
  chars! "0.2952 3.615 2.099",
  chars! "0.3024 3.449 1.903",
  chars! "0.3100 3.313 1.799",
  chars! "0.3179 3.208 1.743",
  chars! "0.3263 3.129 1.719",
  chars! "0.3351 3.069 1.715",
  chars! "0.3444 3.030 1.728",
  chars! "0.3542 3.008 1.754",
  chars! "0.3647 3.004 1.790",
  chars! "0.3757 3.018 1.836",
  chars! "0.3875 3.051 1.891",
  chars! "0.3999 3.108 1.957",
  chars! "0.4133 3.197 2.034",
  chars! "0.4275 3.337 2.129",
  chars! "0.4428 3.626 2.208",
  chars! "0.4592 3.911 2.016",
  chars! "0.4769 4.021 1.885",
  chars! "0.4959 4.364 1.786",
  chars! "0.5166 4.466 1.283",
  chars! "0.5391 4.331 0.991",
  chars! "0.5636 4.199 0.822",
  chars! "0.5904 4.088 0.712",
  chars! "0.6199 3.995 0.634",
  chars! "0.6525 3.917 0.572",
  chars! "0.6888 3.851 0.530",
  chars! "0.7293 3.798 0.493",
  chars! "0.7749 3.755 0.463",
  chars! "0.8266 3.714 0.432"]

/-- materials/data/InP_Aspnes1983.yml:10-. -/
noncomputable def dataInP : List (List Char) := [
  chars! "0.2066 1.336 2.113",
  chars! "0.2101 1.301 2.183",
  chars! "0.2138 1.299 2.280",
  chars! "0.2175 1.325 2.383",
  chars! "0.2214 1.375 2.484",
  chars! "0.2254 1.426 2.562",
  chars! "0.2296 1.455 2.652",
  chars! "0.2339 1.482 2.802",
  chars! "0.2384 1.558 3.016",
  chars! "0.2431 1.745 3.291",
  chars! "0.2480 2.131 3.495",
  chars! "0.2530 2.546 3.514",
  chars! "0.2583 2.984 3.517",
  chars! "0.2638 3.560 3.223",
  chars! "0.2695 3.800 2.637",
  chars! "0.2755 3.697 2.186",
  chars! "0.2818 3.527 1.948",
  chars! "0.2883 3.384 1.826",
  chars! "0.2952 3.275 1.762",
  chars! "0.3024 3.196 1.735",
  chars! "0.3100 3.141 1.730",
  chars! "0.3179 3.108 1.744",
  chars! "0.3263 3.095 1.773",
  chars! "0.3351 3.103 1.816",
  chars! "0.3444 3.133 1.872",
  chars! "0.3542 3.193 1.948",
  chars! "0.3647 3.299 2.060",
  chars! "0.3757 3.576 2.209",
  chars! "0.3875 3.976 2.143",
  chars! "0.3999 4.415 1.735",
  chars! "0.4133 4.395 1.247",
  chars! "0.4275 4.256 0.964",
  chars! "0.4428 4.121 0.786",
  chars! "0.4592 4.004 0.667",
  chars! "0.4769 3.903 0.579",
  chars! "0.4959 3.818 0.511",
  chars! "0.5166 3.745 0.457",
  chars! "0.5391 3.682 0.416",
  chars! "0.5636 3.629 0.380",
  chars! "0.5904 3.585 0.347",
  chars! "0.6199 3.549 0.317",
  chars! "0.6525 3.517 0.293",
  chars! "0.6888 3.492 0.270",
  chars! "0.7293 3.476 0.242",
  chars! "0.7749 3.467 0.218",
  chars! "0.8266 3.456 0.203"]

/-- materials/data/Si_Schinke2015.yml:11-. -/
noncomputable def dataSi : List (List Char) := [
  chars! "0.25 1.637 3.5889E+00",
  chars! "0.26 1.737 3.9932E+00",
  chars! "0.27 2.030 4.5958E+00",
  chars! "0.28 2.840 5.1961E+00",
  chars! "0.29 4.185 5.3124E+00",
  chars! "0.30 5.049 4.2900E+00",
  chars! "0.31 5.091 3.6239E+00",
  chars! "0.32 5.085 3.2824E+00",
  chars! "0.33 5.135 3.0935E+00",
  chars! "0.34 5.245 2.9573E+00",
  chars! "0.35 5.423 2.9078E+00",
  chars! "0.36 5.914 2.9135E+00",
  chars! "0.37 6.820 2.1403E+00",
  chars! "0.38 6.587 9.8399E-01",
  chars! "0.39 6.025 5.0308E-01",
  chars! "0.40 5.623 3.2627E-01",
  chars! "0.41 5.341 2.4127E-01",
  chars! "0.42 5.110 1.7694E-01",
  chars! "0.43 4.932 1.3766E-01",
  chars! "0.44 4.790 1.1201E-01",
  chars! "0.45 4.673 9.5362E-02",
  chars! "0.46 4.572 7.9105E-02",
  chars! "0.47 4.485 7.0240E-02",
  chars! "0.48 4.412 5.9817E-02",
  chars! "0.49 4.349 5.3810E-02",
  chars! "0.50 4.289 4.8542E-02",
  chars! "0.51 4.235 4.3831E-02",
  chars! "0.52 4.187 3.9531E-02",
  chars! "0.53 4.145 3.4804E-02",
  chars! "0.54 4.103 2.9896E-02",
  chars! "0.55 4.073 2.8038E-02",
  chars! "0.56 4.038 2.6551E-02",
  chars! "0.57 4.006 2.3746E-02",
  chars! "0.58 3.977 2.1896E-02",
  chars! "0.59 3.954 2.0076E-02",
  chars! "0.60 3.931 1.8521E-02",
  chars! "0.61 3.908 1.7257E-02",
  chars! "0.62 3.888 1.6809E-02",
  chars! "0.63 3.869 1.6268E-02",
  chars! "0.64 3.851 1.4693E-02",
  chars! "0.65 3.835 1.4447E-02",
  chars! "0.66 3.817 1.3608E-02",
  chars! "0.67 3.805 1.2807E-02",
  chars! "0.68 3.791 1.2045E-02",
  chars! "0.69 3.776 1.1317E-02",
  chars! "0.70 3.765 1.0623E-02",
  chars! "0.71 3.753 9.9610E-03",
  chars! "0.72 3.741 9.3335E-03",
  chars! "0.73 3.730 8.7312E-03",
  chars! "0.74 3.719 8.1618E-03",
  chars! "0.75 3.712 7.6156E-03",
  chars! "0.76 3.701 7.0942E-03",
  chars! "0.77 3.693 6.6054E-03",
  chars! "0.78 3.684 6.1338E-03",
  chars! "0.79 3.677 5.6888E-03",
  chars! "0.80 3.669 5.2655E-03",
  chars! "0.81 3.662 4.8640E-03",
  chars! "0.82 3.655 4.4836E-03",
  chars! "0.83 3.646 4.1235E-03",
  chars! "0.84 3.641 3.7828E-03",
  chars! "0.85 3.636 3.4605E-03",
  chars! "0.86 3.628 3.1563E-03",
  chars! "0.87 3.622 2.8697E-03",
  chars! "0.88 3.617 2.6001E-03",
  chars! "0.89 3.613 2.3464E-03",
  chars! "0.90 3.610 2.1092E-03",
  chars! "0.91 3.604 1.8864E-03",
  chars! "0.92 3.598 1.6787E-03",
  chars! "0.93 3.597 1.4757E-03",
  chars! "0.94 3.590 1.3061E-03",
  chars! "0.95 3.584 1.1393E-03",
  chars! "0.96 3.584 9.8243E-04",
  chars! "0.97 3.578 8.4060E-04",
  chars! "0.98 3.582 7.1334E-04",
  chars! "0.99 3.579 5.9638E-04",
  chars! "1.00 3.575 4.9020E-04",
  chars! "1.01 3.572 3.9616E-04",
  chars! "1.02 3.568 3.1437E-04",
  chars! "1.03 3.565 2.4048E-04",
  chars! "1.04 3.562 1.7959E-04",
  chars! "1.05 3.559 1.3043E-04",
  chars! "1.06 3.556 9.2450E-05",
  chars! "1.07 3.553 6.7820E-05",
  chars! "1.08 3.549 5.2168E-05",
  chars! "1.09 3.547 3.9770E-05",
  chars! "1.10 3.545 3.0217E-05",
  chars! "1.11 3.542 2.2913E-05",
  chars! "1.12 3.540 1.7068E-05",
  chars! "1.13 3.537 1.2382E-05",
  chars! "1.14 3.534 8.6210E-06",
  chars! "1.15 3.533 5.6876E-06",
  chars! "1.16 3.530 3.4275E-06",
  chars! "1.17 3.527 1.7653E-06",
  chars! "1.18 3.526 5.5561E-07",
  chars! "1.19 3.524 2.3153E-07",
  chars! "1.20 3.522 1.3904E-07",
  chars! "1.21 3.520 8.0863E-08",
  chars! "1.22 3.518 4.7940E-08",
  chars! "1.23 3.517 2.7132E-08",
  chars! "1.24 3.515 1.4318E-08",
  chars! "1.25 3.513 5.8798E-09",
  chars! "1.26 3.512 2.3352E-09",
  chars! "1.27 3.509 1.2714E-09",
  chars! "1.28 3.509 7.5284E-10",
  chars! "1.29 3.506 4.4799E-10",
  chars! "1.30 3.505 2.7228E-10",
  chars! "1.31 3.503 1.5856E-10",
  chars! "1.32 3.502 8.7196E-11",
  chars! "1.33 3.501 4.2039E-11",
  chars! "1.34 3.500 1.8128E-11",
  chars! "1.35 3.499 1.0428E-11",
  chars! "1.36 3.497 6.2911E-12",
  chars! "1.37 3.496 3.9030E-12",
  chars! "1.38 3.496 2.6367E-12",
  chars! "1.39 3.496 1.7377E-12",
  chars! "1.40 3.493 1.0428E-12",
  chars! "1.41 3.492 6.0422E-13",
  chars! "1.42 3.492 4.2895E-13",
  chars! "1.43 3.490 2.0381E-13",
  chars! "1.44 3.488 1.3785E-13",
  chars! "1.45 3.487 1.0901E-13"]

/-- materials/data/TiO2_Devore1965.yml:14-. -/
noncomputable def dataTiO2 : List (List Char) := [
  chars! "0.43000 2.99455 0.00000",
  chars! "0.44111 2.95645 0.00000",
  chars! "0.45222 2.92324 0.00000",
  chars! "0.46333 2.89403 0.00000",
  chars! "0.47444 2.86818 0.00000",
  chars! "0.48556 2.84514 0.00000",
  chars! "0.49667 2.82450 0.00000",
  chars! "0.50778 2.80591 0.00000",
  chars! "0.51889 2.78909 0.00000",
  chars! "0.53000 2.77381 0.00000",
  chars! "0.54111 2.75987 0.00000",
  chars! "0.55222 2.74712 0.00000",
  chars! "0.56333 2.73541 0.00000",
  chars! "0.57444 2.72463 0.00000",
  chars! "0.58556 2.71468 0.00000",
  chars! "0.59667 2.70546 0.00000",
  chars! "0.60778 2.69691 0.00000",
  chars! "0.61889 2.68896 0.00000",
  chars! "0.63000 2.68155 0.00000",
  chars! "0.64111 2.67463 0.00000",
  chars! "0.65222 2.66816 0.00000",
  chars! "0.66333 2.66210 0.00000",
  chars! "0.67444 2.65641 0.00000",
  chars! "0.68556 2.65106 0.00000",
  chars! "0.69667 2.64602 0.00000",
  chars! "0.70778 2.64127 0.00000",
  chars! "0.71889 2.63679 0.00000",
  chars! "0.73000 2.63255 0.00000",
  chars! "0.74111 2.62854 0.00000",
  chars! "0.75222 2.62474 0.00000",
  chars! "0.76333 2.62114 0.00000",
  chars! "0.77444 2.61772 0.00000",
  chars! "0.78556 2.61446 0.00000",
  chars! "0.79667 2.61137 0.00000",
  chars! "0.80778 2.60842 0.00000",
  chars! "0.81889 2.60562 0.00000",
  chars! "0.83000 2.60294 0.00000",
  chars! "0.84111 2.60038 0.00000",
  chars! "0.85222 2.59794 0.00000",
  chars! "0.86333 2.59560 0.00000",
  chars! "0.87444 2.59337 0.00000",
  chars! "0.88556 2.59123 0.00000",
  chars! "0.89667 2.58918 0.00000",
  chars! "0.90778 2.58721 0.00000",
  chars! "0.91889 2.58532 0.00000",
  chars! "0.93000 2.58351 0.00000",
  chars! "0.94111 2.58177 0.00000",
  chars! "0.95222 2.58010 0.00000",
  chars! "0.96333 2.57849 0.00000",
  chars! "0.97444 2.57694 0.00000",
  chars! "0.98556 2.57545 0.00000",
  chars! "0.99667 2.57402 0.00000",
  chars! "1.00778 2.57263 0.00000",
  chars! "1.01889 2.57130 0.00000",
  chars! "1.03000 2.57001 0.00000",
  chars! "1.04111 2.56877 0.00000",
  chars! "1.05222 2.56757 0.00000",
  chars! "1.06333 2.56641 0.00000",
  chars! "1.07444 2.56529 0.00000",
  chars! "1.08556 2.56421 0.00000",
  chars! "1.09667 2.56316 0.00000",
  chars! "1.10778 2.56215 0.00000",
  chars! "1.11889 2.56117 0.00000",
  chars! "1.13000 2.56022 0.00000",
  chars! "1.14111 2.55930 0.00000",
  chars! "1.15222 2.55841 0.00000",
  chars! "1.16333 2.55754 0.00000",
  chars! "1.17444 2.55671 0.00000",
  chars! "1.18556 2.55589 0.00000",
  chars! "1.19667 2.55510 0.00000",
  chars! "1.20778 2.55434 0.00000",
  chars! "1.21889 2.55360 0.00000",
  chars! "1.23000 2.55287 0.00000",
  chars! "1.24111 2.55217 0.00000",
  chars! "1.25222 2.55149 0.00000",
  chars! "1.26333 2.55083 0.00000",
  chars! "1.27444 2.55018 0.00000",
  chars! "1.28556 2.54956 0.00000",
  chars! "1.29667 2.54895 0.00000",
  chars! "1.30778 2.54836 0.00000",
  chars! "1.31889 2.54778 0.00000",
  chars! "1.33000 2.54722 0.00000",
  chars! "1.34111 2.54667 0.00000",
  chars! "1.35222 2.54614 0.00000",
  chars! "1.36333 2.54562 0.00000",
  chars! "1.37444 2.54511 0.00000",
  chars! "1.38556 2.54462 0.00000",
  chars! "1.39667 2.54413 0.00000",
  chars! "1.40778 2.54367 0.00000",
  chars! "1.41889 2.54321 0.00000",
  chars! "1.43000 2.54276 0.00000",
  chars! "1.44111 2.54232 0.00000",
  chars! "1.45222 2.54190 0.00000",
  chars! "1.46333 2.54148 0.00000",
  chars! "1.47444 2.54108 0.00000",
  chars! "1.48556 2.54068 0.00000",
  chars! "1.49667 2.54029 0.00000",
  chars! "1.50778 2.53992 0.00000",
  chars! "1.51889 2.53955 0.00000",
  chars! "1.53000 2.53919 0.00000"]

/-- materials/data/aSi_Pierce1972.yml:10-. -/
noncomputable def dataaSi : List (List Char) := [
  chars! "1.033E-1 3.27E-1 7.26E-1",
  chars! "1.078E-1 3.63E-1 8.47E-1",
  chars! "1.127E-1 3.92E-1 9.46E-1",
  chars! "1.181E-1 4.23E-1 1.04E+0",
  chars! "1.240E-1 4.59E-1 1.14E+0",
  chars! "1.305E-1 4.97E-1 1.24E+0",
  chars! "1.378E-1 5.43E-1 1.35E+0",
  chars! "1.459E-1 5.97E-1 1.47E+0",
  chars! "1.550E-1 6.60E-1 1.60E+0",
  chars! "1.653E-1 7.35E-1 1.74E+0",
  chars! "1.771E-1 8.32E-1 1.89E+0",
  chars! "1.907E-1 9.51E-1 2.07E+0",
  chars! "2.066E-1 1.11E+0 2.28E+0",
  chars! "2.254E-1 1.35E+0 2.51E+0",
  chars! "2.480E-1 1.69E+0 2.76E+0",
  chars! "2.583E-1 1.86E+0 2.85E+0",
  chars! "2.695E-1 2.07E+0 2.93E+0",
  chars! "2.818E-1 2.30E+0 2.99E+0",
  chars! "2.952E-1 2.56E+0 3.04E+0",
  chars! "3.100E-1 2.87E+0 3.06E+0",
  chars! "3.263E-1 3.21E+0 3.00E+0",
  chars! "3.444E-1 3.55E+0 2.88E+0",
  chars! "3.543E-1 3.73E+0 2.79E+0",
  chars! "3.647E-1 3.90E+0 2.66E+0",
  chars! "3.875E-1 4.17E+0 2.38E+0",
  chars! "4.133E-1 4.38E+0 2.02E+0",
  chars! "4.428E-1 4.47E+0 1.64E+0",
  chars! "4.769E-1 4.49E+0 1.28E+0",
  chars! "4.960E-1 4.47E+0 1.12E+0",
  chars! "5.166E-1 4.46E+0 9.69E-1",
  chars! "5.636E-1 4.36E+0 6.90E-1",
  chars! "6.199E-1 4.23E+0 4.61E-1",
  chars! "6.526E-1 4.17E+0 3.63E-1",
  chars! "6.888E-1 4.09E+0 2.71E-1",
  chars! "7.293E-1 4.01E+0 1.99E-1",
  chars! "7.749E-1 3.93E+0 1.36E-1",
  chars! "8.266E-1 3.86E+0 8.12E-2",
  chars! "8.856E-1 3.77E+0 4.01E-2",
  chars! "9.538E-1 3.68E+0 0.00E+0",
  chars! "1.033E+0 3.61E+0 0.00E+0",
  chars! "1.127E+0 3.57E+0 0.00E+0",
  chars! "1.240E+0 3.54E+0 0.00E+0",
  chars! "1.378E+0 3.50E+0 0.00E+0",
  chars! "1.550E+0 3.48E+0 0.00E+0",
  chars! "1.771E+0 3.45E+0 0.00E+0",
  chars! "2.066E+0 3.44E+0 0.00E+0"]

/-- All tabulated files: name and lines of the `data` entry. Code: materials/data/*.yaml, read by materials/mat.py:309. -/
noncomputable def shippedTables : List (String × List (List Char)) := [
  ("Ag_Johnson1972.yml", dataAg),
  ("Al_Rakic1995.yml", dataAl),
  ("Au_Johnson1972.yml", dataAu),
  ("GaAs_Papatryfonos2021.yml", dataGaAs),
  ("GaN_Kawashima1997.yml", dataGaN),
  ("GaP_Aspnes1983.yml", dataGaP),
  ("Ge_Nunley2016.yml", dataGe),
  ("InAs_Aspnes1983.yml", dataInAs),
  ("InP_Aspnes1983.yml", dataInP),
  ("Si_Schinke2015.yml", dataSi),
  ("TiO2_Devore1965.yml", dataTiO2),
  ("aSi_Pierce1972.yml", dataaSi)]

/-- All formula files: name, formula number, `wavelength_range`, `coefficients`.
Code: materials/data/*.yaml, read by materials/mat.py:320. -/
noncomputable def shippedFormulas : List (String × Int × List Char × List Char) := [
  ("Al2O3e_Malitson1972.yml", 1, chars! "0.20 5.0", chars! "0 1.5039759 0.0740288 0.55069141 0.1216529 6.5927379 20.072248"),
  ("Al2O3o_Malitson1972.yml", 1, chars! "0.20 5.0", chars! "0 1.4313493 0.0726631 0.65054713 0.1193242 5.3414021 18.028251"),
  ("Si3N4_Luke2015.yml", 1, chars! "0.310 5.504", chars! "0 3.0249 0.1353406 40314 1239.842"),
  ("SiO2_Malitson1965.yml", 1, chars! "0.21 6.7", chars! "0 0.6961663 0.0684043 0.4079426 0.1162414 0.8974794 9.896161"),
  ("ZrO2_Wood1982.yml", 1, chars! "0.361 5.135", chars! "0 1.347091 0.062543 2.117788 0.166739 9.452943 24.320570")]

end MieDiff
