import Verif.Model.RawExpr

/-!
# Every raw statement of the provers, verifiers and transcript

Extracted mechanically from the sources: each right-hand side computing on `.value` of
`prover_fast_track.cpp`, `verifier_fast_track.cpp`, `zk_prover.cpp`, `zk_verifier.cpp`,
`prover_clogc.cpp`, `verifier_traditional.cpp`, `prover_bc_clogc.cpp`, `verifier_bc_clogc.cpp`,
`transcript.h`, up to renaming of the field elements read (`a`, `b`, ...). A statement sequence
that stores an unreduced value and reduces it right after is one entry; local variables holding an
unreduced value are inlined. `if-reduce x` is `if (x >= mod) x = x - mod` (or `+ minus_mod_512`),
`while-reduce` the same with `while`. Branches guarded by `value < 0` are never taken (unsigned).
-/

namespace Libra.RawStmt
open Raw

/-- `((a * b) + (c * d)) % mod` — prover_fast_track.cpp:19,226-227,238-239,246-247,253-254,260-
262,273-274,281-282,289-290,297-298,305-306,436-437,445-446,456-457,469-470,477-478,486-487,496-
497,505-506; zk_prover.cpp:38,476-477,484-485,491-493,504-506,520-528,539-540,549-550,565-
566,575-576,588-589,868-869,877-878,892-893,904-905,921-922,930-931,942-943,957-958,972-973,983-
984; prover_clogc.cpp:19,196-197; prover_bc_clogc.cpp:23,31,237-238. -/
def s01 : Raw :=
  .rem (.add (.mul (.var 0) (.var 1)) (.mul (.var 2) (.var 3)))

/-- `(a * b) % mod` — prover_fast_track.cpp:204,205,206,207,215,216,217,218,392,393,401,402,409,435,
444,458,461,468,476,485,488,495,498,504,507; verifier_fast_track.cpp:329,330,334,335; zk_prover.
cpp:447,448,449,450,458,459,460,461,551,567,577,823,824,832,833,867,876,879,891,894,897,906,910,
920,923,929,932,941,944,945,956,959,960,971,974,982,985;
zk_verifier.cpp:476,684,685,689,690,697,698,702,703,756,757,761,762,769,770,774,775;
prover_clogc.cpp:174,175,176,177,185,186,187,188; verifier_traditional.cpp:130,131,135,136;
prover_bc_clogc.cpp:215,216,217,218,226,227,228,229; verifier_bc_clogc.cpp:149,150,154,155. -/
def s02 : Raw :=
  .rem (.mul (.var 0) (.var 1))

/-- `(a + (b * c)) % mod` — prover_fast_track.cpp:240,248,355,447-450,462,508,556;
zk_prover.cpp:478,486,641,725,898,911,986,1041,1127. -/
def s03 : Raw :=
  .rem (.add (.var 0) (.mul (.var 1) (.var 2)))

/-- `(a + b) % mod` — prover_fast_track.cpp:241,255,276,284,307;
zk_prover.cpp:479,578,787,788,1083,1084,1188,1189,1224,1225; zk_verifier.cpp:919. -/
def s04 : Raw :=
  .rem (.add (.var 0) (.var 1))

/-- `if-reduce (a + b)` — prover_fast_track.cpp:265-267; zk_prover.cpp:964-966. -/
def s05 : Raw :=
  .csub false (.add (.var 0) (.var 1))

/-- `((a + mod) - b) % mod` — prover_fast_track.cpp:275. -/
def s06 : Raw :=
  .rem (.sub (.add (.var 0) .modulus) (.var 1))

/-- `((a + mod) - (b * c) % mod) % mod` — prover_fast_track.cpp:283,300,479; zk_prover.cpp:541. -/
def s07 : Raw :=
  .rem (.sub (.add (.var 0) .modulus) (.rem (.mul (.var 1) (.var 2))))

/-- `(a + (b * c) % mod) % mod` — prover_fast_track.cpp:291,299,490. -/
def s08 : Raw :=
  .rem (.add (.var 0) (.rem (.mul (.var 1) (.var 2))))

/-- `(((a + b) + mod) - ((field_element(2) * c) % mod * b) % mod) % mod` —
prover_fast_track.cpp:292,489. -/
def s09 : Raw :=
  .rem (.sub (.add (.add (.var 0) (.var 1)) .modulus) (.rem (.mul (.rem (.mul (.lit 2) (.var 2))) (.var 1))))

/-- `((a * b) + c) % mod` — prover_fast_track.cpp:345,348,351,546,549,552;
zk_prover.cpp:631,634,637,715,718,721,881-886,936,1031,1034,1037,1117,1120,1123. -/
def s10 : Raw :=
  .rem (.add (.mul (.var 0) (.var 1)) (.var 2))

/-- `((((a * b) + c) - d) + mod) % mod` — prover_fast_track.cpp:346,349,352;
zk_prover.cpp:632,635,638,716,719,722. -/
def s11 : Raw :=
  .rem (.add (.sub (.add (.mul (.var 0) (.var 1)) (.var 2)) (.var 3)) .modulus)

/-- `(((a + (b * c)) + (d * e)) + f) % mod` — prover_fast_track.cpp:356-357,557-559;
zk_prover.cpp:642-643,726-727,1042-1044,1128-1130. -/
def s12 : Raw :=
  .rem (.add (.add (.add (.var 0) (.mul (.var 1) (.var 2))) (.mul (.var 3) (.var 4))) (.var 5))

/-- `((a + (b * c)) + d) % mod` — prover_fast_track.cpp:358-359,560-561;
zk_prover.cpp:644-645,728-729,1045-1046,1131-1132. -/
def s13 : Raw :=
  .rem (.add (.add (.var 0) (.mul (.var 1) (.var 2))) (.var 3))

/-- `a % mod` — prover_fast_track.cpp:363,364,365,566,567,568;
verifier_fast_track.cpp:214,230,276,293,311,378,396,415;
zk_verifier.cpp:293,294,316,317,640,641,839; verifier_traditional.cpp:96,112,166,186;
verifier_bc_clogc.cpp:115,131,185,216; transcript.h:122. -/
def s14 : Raw :=
  .rem (.var 0)

/-- `(a + mod) % mod` — prover_fast_track.cpp:367,368,369,569,570,571; zk_prover.cpp:1086,1087,1088. -/
def s15 : Raw :=
  .rem (.add (.var 0) .modulus)

/-- `(a + ((b * c) % mod * d)) % mod` — prover_fast_track.cpp:438-439; zk_prover.cpp:870-871; zk_ver
ifier.cpp:245-247,246-248,260-262,261-263,329-331,330-332,344-346,345-347,359-361,360-362,374-
376,375-377,389-391,390-392,404-406,405-407. -/
def s16 : Raw :=
  .rem (.add (.var 0) (.mul (.rem (.mul (.var 1) (.var 2))) (.var 3)))

/-- `(((a * b) % mod * c) + d) % mod` — prover_fast_track.cpp:448-451,480. -/
def s17 : Raw :=
  .rem (.add (.mul (.rem (.mul (.var 0) (.var 1))) (.var 2)) (.var 3))

/-- `(((a + (b * c) % mod) + mod) - ((b * c) % mod * d) % mod) % mod` — prover_fast_track.cpp:471. -/
def s18 : Raw :=
  .rem (.sub (.add (.add (.var 0) (.rem (.mul (.var 1) (.var 2)))) .modulus) (.rem (.mul (.rem (.mul (.var 1) (.var 2))) (.var 3))))

/-- `(((a + b) + mod) - (c * b) % mod) % mod` — prover_fast_track.cpp:499. -/
def s19 : Raw :=
  .rem (.sub (.add (.add (.var 0) (.var 1)) .modulus) (.rem (.mul (.var 2) (.var 1))))

/-- `((((a * b) + c) + mod) - d) % mod` — prover_fast_track.cpp:547,550,553;
zk_prover.cpp:1032,1035,1038,1118,1121,1124. -/
def s20 : Raw :=
  .rem (.sub (.add (.add (.mul (.var 0) (.var 1)) (.var 2)) .modulus) (.var 3))

/-- `if-reduce (a + b)` —
zk_prover.cpp:496-498,509-511,532-534,542-544,555-557,590-592,880-884,949-951. -/
def s21 : Raw :=
  .csub true (.add (.var 0) (.var 1))

/-- `if-reduce (a + a)` — zk_prover.cpp:512-514,552-554,912-914. -/
def s22 : Raw :=
  .csub true (.add (.var 0) (.var 0))

/-- `(a + ((b * c) + (d * e))) % mod` — zk_prover.cpp:522. -/
def s23 : Raw :=
  .rem (.add (.var 0) (.add (.mul (.var 1) (.var 2)) (.mul (.var 3) (.var 4))))

/-- `while-reduce ((a + mod) - b)` — zk_prover.cpp:529-531,579-581,933-935. -/
def s24 : Raw :=
  .wsub true (.sub (.add (.var 0) .modulus) (.var 1))

/-- `while-reduce (((a + b) + mod) - c)` — zk_prover.cpp:558-560. -/
def s25 : Raw :=
  .wsub true (.sub (.add (.add (.var 0) (.var 1)) .modulus) (.var 2))

/-- `while-reduce (((a + mod) - b) + c)` — zk_prover.cpp:568-570. -/
def s26 : Raw :=
  .wsub false (.add (.sub (.add (.var 0) .modulus) (.var 1)) (.var 2))

/-- `while-reduce a` — zk_prover.cpp:582-583. -/
def s27 : Raw :=
  .wsub true (.var 0)

/-- `((a + b) + c) % mod` — zk_prover.cpp:789,1085,1190,1226. -/
def s28 : Raw :=
  .rem (.add (.add (.var 0) (.var 1)) (.var 2))

/-- `(((a + b) + mod) - (b * c) % mod) % mod` — zk_prover.cpp:924. -/
def s29 : Raw :=
  .rem (.sub (.add (.add (.var 0) (.var 1)) .modulus) (.rem (.mul (.var 1) (.var 2))))

/-- `while-reduce (((((a + b) + mod) + mod) - c) - c)` — zk_prover.cpp:946-948. -/
def s30 : Raw :=
  .wsub true (.sub (.sub (.add (.add (.add (.var 0) (.var 1)) .modulus) .modulus) (.var 2)) (.var 2))

/-- `while-reduce ((a + mod) - b)` — zk_prover.cpp:961-963. -/
def s31 : Raw :=
  .wsub false (.sub (.add (.var 0) .modulus) (.var 1))

/-- `while-reduce (((a + b) + mod) - (c * b) % mod)` — zk_prover.cpp:975-977. -/
def s32 : Raw :=
  .wsub true (.sub (.add (.add (.var 0) (.var 1)) .modulus) (.rem (.mul (.var 2) (.var 1))))

/-- `((a * b) % mod * (c * d) % mod) % mod` — zk_verifier.cpp:244,259,328,343,358,373,388,403. -/
def s33 : Raw :=
  .rem (.mul (.rem (.mul (.var 0) (.var 1))) (.rem (.mul (.var 2) (.var 3))))

/-- `if-reduce a` — zk_verifier.cpp:313-314,556-557. -/
def s34 : Raw :=
  .csub false (.var 0)

/-- `((a + (b * c)) + (d * e)) % mod` — zk_verifier.cpp:454-455,459-460. -/
def s35 : Raw :=
  .rem (.add (.add (.var 0) (.mul (.var 1) (.var 2))) (.mul (.var 3) (.var 4)))

/-- `((a * b) % mod * c) % mod` — zk_verifier.cpp:481. -/
def s36 : Raw :=
  .rem (.mul (.rem (.mul (.var 0) (.var 1))) (.var 2))

/-- `(a + ((((b * c) + (d * e)) % mod * (f * g) % mod) % mod * (h * i) % mod)) % mod` —
zk_verifier.cpp:497-499,510-512,570-572,583-585,596-598,609-611,630-632. -/
def s37 : Raw :=
  .rem (.add (.var 0) (.mul (.rem (.mul (.rem (.add (.mul (.var 1) (.var 2)) (.mul (.var 3) (.var 4)))) (.rem (.mul (.var 5) (.var 6))))) (.rem (.mul (.var 7) (.var 8)))))

/-- `(a + (((b * c) + (d * e)) % mod * f)) % mod` — zk_verifier.cpp:618-619. -/
def s38 : Raw :=
  .rem (.add (.var 0) (.mul (.rem (.add (.mul (.var 1) (.var 2)) (.mul (.var 3) (.var 4)))) (.var 5)))

/-- all of them -/
def all : List Raw :=
  [s01, s02, s03, s04, s05, s06, s07, s08, s09, s10,
   s11, s12, s13, s14, s15, s16, s17, s18, s19, s20,
   s21, s22, s23, s24, s25, s26, s27, s28, s29, s30,
   s31, s32, s33, s34, s35, s36, s37, s38]

end Libra.RawStmt
