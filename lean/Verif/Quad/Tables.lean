/-
GENERATED by tools/gen_quad.py from the text of sfepy/discrete/quadratures.py: the tables of quadrature
points.  `dc m k` is the decimal number `m / 10 ^ k` of the source.
-/
import Verif.Quad.Model

namespace Quad

/-- A decimal number. -/
abbrev dc (m k : ℕ) : Ex := .dec m k

/-- The entry of order 1 of the geometry `0_1`,
sfepy/discrete/quadratures.py:242-242. -/
def t01o1 : Entry where
  order := 1
  rows := [
    ([dc 0 0], dc 1 0)]
  bounds := false
  tpFix := dc 1 0
  weightFix := dc 1 0
  symmetric := false

/-- The entry of order 1 of the geometry `1_2`,
sfepy/discrete/quadratures.py:246-247. -/
def t12o1 : Entry where
  order := 1
  rows := [
    ([dc 0 0], dc 2 0)]
  bounds := true
  tpFix := dc 1 0
  weightFix := dc 1 0
  symmetric := true

/-- The entry of order 3 of the geometry `1_2`,
sfepy/discrete/quadratures.py:249-250. -/
def t12o3 : Entry where
  order := 3
  rows := [
    ([dc 577350269189626 15], dc 1 0)]
  bounds := true
  tpFix := dc 1 0
  weightFix := dc 1 0
  symmetric := true

/-- The entry of order 5 of the geometry `1_2`,
sfepy/discrete/quadratures.py:252-254. -/
def t12o5 : Entry where
  order := 5
  rows := [
    ([dc 0 0], dc 888888888888889 15),
    ([dc 774596669241483 15], dc 555555555555556 15)]
  bounds := true
  tpFix := dc 1 0
  weightFix := dc 1 0
  symmetric := true

/-- The entry of order 7 of the geometry `1_2`,
sfepy/discrete/quadratures.py:256-258. -/
def t12o7 : Entry where
  order := 7
  rows := [
    ([dc 339981043584856 15], dc 652145154862546 15),
    ([dc 861136311594053 15], dc 347854845137454 15)]
  bounds := true
  tpFix := dc 1 0
  weightFix := dc 1 0
  symmetric := true

/-- The entry of order 9 of the geometry `1_2`,
sfepy/discrete/quadratures.py:260-263. -/
def t12o9 : Entry where
  order := 9
  rows := [
    ([dc 0 0], dc 568888888888889 15),
    ([dc 538469310105683 15], dc 478628670499366 15),
    ([dc 906179845938664 15], dc 236926885056189 15)]
  bounds := true
  tpFix := dc 1 0
  weightFix := dc 1 0
  symmetric := true

/-- The entry of order 11 of the geometry `1_2`,
sfepy/discrete/quadratures.py:265-268. -/
def t12o11 : Entry where
  order := 11
  rows := [
    ([dc 238619186083197 15], dc 467913934572691 15),
    ([dc 661209386466265 15], dc 360761573048139 15),
    ([dc 932469514203152 15], dc 17132449237917 14)]
  bounds := true
  tpFix := dc 1 0
  weightFix := dc 1 0
  symmetric := true

/-- The entry of order 13 of the geometry `1_2`,
sfepy/discrete/quadratures.py:270-274. -/
def t12o13 : Entry where
  order := 13
  rows := [
    ([dc 0 0], dc 417959183673469 15),
    ([dc 405845151377397 15], dc 381830050505119 15),
    ([dc 741531185599394 15], dc 279705391489277 15),
    ([dc 949107912342759 15], dc 12948496616887 14)]
  bounds := true
  tpFix := dc 1 0
  weightFix := dc 1 0
  symmetric := true

/-- The entry of order 15 of the geometry `1_2`,
sfepy/discrete/quadratures.py:276-280. -/
def t12o15 : Entry where
  order := 15
  rows := [
    ([dc 18343464249565 14], dc 362683783378362 15),
    ([dc 525532409916329 15], dc 313706645877887 15),
    ([dc 796666477413627 15], dc 222381034453374 15),
    ([dc 960289856497536 15], dc 101228536290376 15)]
  bounds := true
  tpFix := dc 1 0
  weightFix := dc 1 0
  symmetric := true

/-- The entry of order 17 of the geometry `1_2`,
sfepy/discrete/quadratures.py:282-287. -/
def t12o17 : Entry where
  order := 17
  rows := [
    ([dc 0 0], dc 33023935500126 14),
    ([dc 324253423403809 15], dc 312347077040003 15),
    ([dc 61337143270059 14], dc 260610696402935 15),
    ([dc 836031107326636 15], dc 180648160694857 15),
    ([dc 968160239507626 15], dc 81274388361574 15)]
  bounds := true
  tpFix := dc 1 0
  weightFix := dc 1 0
  symmetric := true

/-- The entry of order 19 of the geometry `1_2`,
sfepy/discrete/quadratures.py:289-294. -/
def t12o19 : Entry where
  order := 19
  rows := [
    ([dc 148874338981631 15], dc 295524224714753 15),
    ([dc 433395394129247 15], dc 269266719309996 15),
    ([dc 679409568299024 15], dc 219086362515982 15),
    ([dc 865063366688985 15], dc 149451349150581 15),
    ([dc 973906528517172 15], dc 66671344308688 15)]
  bounds := true
  tpFix := dc 1 0
  weightFix := dc 1 0
  symmetric := true

/-- The entry of order 23 of the geometry `1_2`,
sfepy/discrete/quadratures.py:296-302. -/
def t12o23 : Entry where
  order := 23
  rows := [
    ([dc 125233408511469 15], dc 249147045813403 15),
    ([dc 36783149899818 14], dc 233492536538355 15),
    ([dc 587317954286617 15], dc 203167426723066 15),
    ([dc 769902674194305 15], dc 160078328543346 15),
    ([dc 904117256370475 15], dc 106939325995318 15),
    ([dc 981560634246719 15], dc 47175336386512 15)]
  bounds := true
  tpFix := dc 1 0
  weightFix := dc 1 0
  symmetric := true

/-- The entry of order 31 of the geometry `1_2`,
sfepy/discrete/quadratures.py:304-312. -/
def t12o31 : Entry where
  order := 31
  rows := [
    ([dc 95012509837637440185 21], dc 189450610455068496285 21),
    ([dc 28160355077925891323 20], dc 182603415044923588867 21),
    ([dc 458016777657227386342 21], dc 169156519395002538189 21),
    ([dc 617876244402643748447 21], dc 149595988816576732081 21),
    ([dc 755404408355003033895 21], dc 124628971255533872052 21),
    ([dc 86563120238783174388 20], dc 9515851168249278481 20),
    ([dc 944575023073232576078 21], dc 62253523938647892863 21),
    ([dc 989400934991649932596 21], dc 27152459411754094852 21)]
  bounds := true
  tpFix := dc 1 0
  weightFix := dc 1 0
  symmetric := true

/-- The entry of order 39 of the geometry `1_2`,
sfepy/discrete/quadratures.py:314-324. -/
def t12o39 : Entry where
  order := 39
  rows := [
    ([dc 76526521133497333755 21], dc 152753387130725850698 21),
    ([dc 22778585114164507808 20], dc 149172986472603746788 21),
    ([dc 373706088715419560673 21], dc 142096109318382051329 21),
    ([dc 510867001950827098004 21], dc 131688638449176626898 21),
    ([dc 636053680726515025453 21], dc 118194531961518417312 21),
    ([dc 746331906460150792614 21], dc 101930119817240435037 21),
    ([dc 839116971822218823395 21], dc 83276741576704748725 21),
    ([dc 912234428251325905868 21], dc 6267204833410906357 20),
    ([dc 963971927277913791268 21], dc 40601429800386941331 21),
    ([dc 993128599185094924786 21], dc 17614007139152118312 21)]
  bounds := true
  tpFix := dc 1 0
  weightFix := dc 1 0
  symmetric := true

/-- The entry of order 47 of the geometry `1_2`,
sfepy/discrete/quadratures.py:326-338. -/
def t12o47 : Entry where
  order := 47
  rows := [
    ([dc 64056892862605626085 21], dc 127938195346752156974 21),
    ([dc 191118867473616309159 21], dc 125837456346828296121 21),
    ([dc 315042679696163374387 21], dc 121670472927803391204 21),
    ([dc 433793507626045138487 21], dc 115505668053725601353 21),
    ([dc 545421471388839535658 21], dc 107444270115965634783 21),
    ([dc 648093651936975569252 21], dc 9761865210411388827 20),
    ([dc 740124191578554364244 21], dc 86190161531953275917 21),
    ([dc 820001985973902921954 21], dc 73346481411080305734 21),
    ([dc 886415527004401034213 21], dc 59298584915436780746 21),
    ([dc 938274552002732758524 21], dc 44277438817419806169 21),
    ([dc 974728555971309498198 21], dc 28531388628933663181 21),
    ([dc 99518721999702136018 20], dc 12341229799987199547 21)]
  bounds := true
  tpFix := dc 1 0
  weightFix := dc 1 0
  symmetric := true

/-- The entry of order 1 of the geometry `2_3`,
sfepy/discrete/quadratures.py:342-343. -/
def t23o1 : Entry where
  order := 1
  rows := [
    ([.div (dc 1 0) (dc 3 0), .div (dc 1 0) (dc 3 0)], dc 5 1)]
  bounds := false
  tpFix := dc 5 1
  weightFix := dc 1 0
  symmetric := false

/-- The entry of order 2 of the geometry `2_3`,
sfepy/discrete/quadratures.py:345-348. -/
def t23o2 : Entry where
  order := 2
  rows := [
    ([.div (dc 1 0) (dc 6 0), .div (dc 1 0) (dc 6 0)], .div (dc 1 0) (dc 6 0)),
    ([.div (dc 2 0) (dc 3 0), .div (dc 1 0) (dc 6 0)], .div (dc 1 0) (dc 6 0)),
    ([.div (dc 1 0) (dc 6 0), .div (dc 2 0) (dc 3 0)], .div (dc 1 0) (dc 6 0))]
  bounds := false
  tpFix := dc 5 1
  weightFix := dc 1 0
  symmetric := false

/-- The entry of order 3 of the geometry `2_3`,
sfepy/discrete/quadratures.py:350-354. -/
def t23o3 : Entry where
  order := 3
  rows := [
    ([.div (dc 1 0) (dc 3 0), .div (dc 1 0) (dc 3 0)], .div (.neg (dc 27 0)) (dc 96 0)),
    ([.div (dc 1 0) (dc 5 0), .div (dc 1 0) (dc 5 0)], .div (dc 25 0) (dc 96 0)),
    ([.div (dc 3 0) (dc 5 0), .div (dc 1 0) (dc 5 0)], .div (dc 25 0) (dc 96 0)),
    ([.div (dc 1 0) (dc 5 0), .div (dc 3 0) (dc 5 0)], .div (dc 25 0) (dc 96 0))]
  bounds := false
  tpFix := dc 5 1
  weightFix := dc 1 0
  symmetric := false

/-- The entry of order 4 of the geometry `2_3`,
sfepy/discrete/quadratures.py:356-362. -/
def t23o4 : Entry where
  order := 4
  rows := [
    ([dc 445948490915965 15, dc 445948490915965 15], dc 223381589678011 15),
    ([dc 10810301816807 14, dc 445948490915965 15], dc 223381589678011 15),
    ([dc 445948490915965 15, dc 10810301816807 14], dc 223381589678011 15),
    ([dc 91576213509771 15, dc 91576213509771 15], dc 109951743655322 15),
    ([dc 816847572980459 15, dc 91576213509771 15], dc 109951743655322 15),
    ([dc 91576213509771 15, dc 816847572980459 15], dc 109951743655322 15)]
  bounds := false
  tpFix := dc 5 1
  weightFix := dc 5 1
  symmetric := false

/-- The entry of order 5 of the geometry `2_3`,
sfepy/discrete/quadratures.py:363-370. -/
def t23o5 : Entry where
  order := 5
  rows := [
    ([dc 333333333333333 15, dc 333333333333333 15], dc 225 3),
    ([dc 470142064105115 15, dc 470142064105115 15], dc 132394152788506 15),
    ([dc 5971587178977 14, dc 470142064105115 15], dc 132394152788506 15),
    ([dc 470142064105115 15, dc 5971587178977 14], dc 132394152788506 15),
    ([dc 101286507323456 15, dc 101286507323456 15], dc 125939180544827 15),
    ([dc 797426985353087 15, dc 101286507323456 15], dc 125939180544827 15),
    ([dc 101286507323456 15, dc 797426985353087 15], dc 125939180544827 15)]
  bounds := false
  tpFix := dc 5 1
  weightFix := dc 5 1
  symmetric := false

/-- The entry of order 6 of the geometry `2_3`,
sfepy/discrete/quadratures.py:371-383. -/
def t23o6 : Entry where
  order := 6
  rows := [
    ([dc 24928674517091 14, dc 24928674517091 14], dc 116786275726379 15),
    ([dc 501426509658179 15, dc 24928674517091 14], dc 116786275726379 15),
    ([dc 24928674517091 14, dc 501426509658179 15], dc 116786275726379 15),
    ([dc 63089014491502 15, dc 63089014491502 15], dc 50844906370207 15),
    ([dc 873821971016996 15, dc 63089014491502 15], dc 50844906370207 15),
    ([dc 63089014491502 15, dc 873821971016996 15], dc 50844906370207 15),
    ([dc 310352451033784 15, dc 636502499121399 15], dc 82851075618374 15),
    ([dc 636502499121399 15, dc 310352451033784 15], dc 82851075618374 15),
    ([dc 53145049844817 15, dc 636502499121399 15], dc 82851075618374 15),
    ([dc 636502499121399 15, dc 53145049844817 15], dc 82851075618374 15),
    ([dc 310352451033784 15, dc 53145049844817 15], dc 82851075618374 15),
    ([dc 53145049844817 15, dc 310352451033784 15], dc 82851075618374 15)]
  bounds := false
  tpFix := dc 5 1
  weightFix := dc 5 1
  symmetric := false

/-- The entry of order 7 of the geometry `2_3`,
sfepy/discrete/quadratures.py:384-397. -/
def t23o7 : Entry where
  order := 7
  rows := [
    ([dc 333333333333333 15, dc 333333333333333 15], .neg (dc 149570044467682 15)),
    ([dc 26034596607904 14, dc 26034596607904 14], dc 175615257433208 15),
    ([dc 47930806784192 14, dc 26034596607904 14], dc 175615257433208 15),
    ([dc 26034596607904 14, dc 47930806784192 14], dc 175615257433208 15),
    ([dc 65130102902216 15, dc 65130102902216 15], dc 53347235608838 15),
    ([dc 869739794195568 15, dc 65130102902216 15], dc 53347235608838 15),
    ([dc 65130102902216 15, dc 869739794195568 15], dc 53347235608838 15),
    ([dc 312865496004874 15, dc 63844418856981 14], dc 77113760890257 15),
    ([dc 63844418856981 14, dc 312865496004874 15], dc 77113760890257 15),
    ([dc 48690315425316 15, dc 63844418856981 14], dc 77113760890257 15),
    ([dc 63844418856981 14, dc 48690315425316 15], dc 77113760890257 15),
    ([dc 312865496004874 15, dc 48690315425316 15], dc 77113760890257 15),
    ([dc 48690315425316 15, dc 312865496004874 15], dc 77113760890257 15)]
  bounds := false
  tpFix := dc 5 1
  weightFix := dc 5 1
  symmetric := false

/-- The entry of order 8 of the geometry `2_3`,
sfepy/discrete/quadratures.py:398-414. -/
def t23o8 : Entry where
  order := 8
  rows := [
    ([dc 333333333333333 15, dc 333333333333333 15], dc 144315607677787 15),
    ([dc 459292588292723 15, dc 459292588292723 15], dc 95091634267285 15),
    ([dc 81414823414554 15, dc 459292588292723 15], dc 95091634267285 15),
    ([dc 459292588292723 15, dc 81414823414554 15], dc 95091634267285 15),
    ([dc 17056930775176 14, dc 17056930775176 14], dc 103217370534718 15),
    ([dc 65886138449648 14, dc 17056930775176 14], dc 103217370534718 15),
    ([dc 17056930775176 14, dc 65886138449648 14], dc 103217370534718 15),
    ([dc 50547228317031 15, dc 50547228317031 15], dc 32458497623198 15),
    ([dc 898905543365938 15, dc 50547228317031 15], dc 32458497623198 15),
    ([dc 50547228317031 15, dc 898905543365938 15], dc 32458497623198 15),
    ([dc 263112829634638 15, dc 728492392955404 15], dc 27230314174435 15),
    ([dc 728492392955404 15, dc 263112829634638 15], dc 27230314174435 15),
    ([dc 8394777409958 15, dc 728492392955404 15], dc 27230314174435 15),
    ([dc 728492392955404 15, dc 8394777409958 15], dc 27230314174435 15),
    ([dc 263112829634638 15, dc 8394777409958 15], dc 27230314174435 15),
    ([dc 8394777409958 15, dc 263112829634638 15], dc 27230314174435 15)]
  bounds := false
  tpFix := dc 5 1
  weightFix := dc 5 1
  symmetric := false

/-- The entry of order 9 of the geometry `2_3`,
sfepy/discrete/quadratures.py:415-434. -/
def t23o9 : Entry where
  order := 9
  rows := [
    ([dc 333333333333333 15, dc 333333333333333 15], dc 97135796282799 15),
    ([dc 489682519198738 15, dc 489682519198738 15], dc 31334700227139 15),
    ([dc 20634961602525 15, dc 489682519198738 15], dc 31334700227139 15),
    ([dc 489682519198738 15, dc 20634961602525 15], dc 31334700227139 15),
    ([dc 437089591492937 15, dc 437089591492937 15], dc 77827541004774 15),
    ([dc 125820817014127 15, dc 437089591492937 15], dc 77827541004774 15),
    ([dc 437089591492937 15, dc 125820817014127 15], dc 77827541004774 15),
    ([dc 188203535619033 15, dc 188203535619033 15], dc 7964773892721 14),
    ([dc 623592928761935 15, dc 188203535619033 15], dc 7964773892721 14),
    ([dc 188203535619033 15, dc 623592928761935 15], dc 7964773892721 14),
    ([dc 44729513394453 15, dc 44729513394453 15], dc 25577675658698 15),
    ([dc 910540973211095 15, dc 44729513394453 15], dc 25577675658698 15),
    ([dc 44729513394453 15, dc 910540973211095 15], dc 25577675658698 15),
    ([dc 221962989160766 15, dc 741198598784498 15], dc 43283539377289 15),
    ([dc 741198598784498 15, dc 221962989160766 15], dc 43283539377289 15),
    ([dc 36838412054736 15, dc 741198598784498 15], dc 43283539377289 15),
    ([dc 741198598784498 15, dc 36838412054736 15], dc 43283539377289 15),
    ([dc 221962989160766 15, dc 36838412054736 15], dc 43283539377289 15),
    ([dc 36838412054736 15, dc 221962989160766 15], dc 43283539377289 15)]
  bounds := false
  tpFix := dc 5 1
  weightFix := dc 5 1
  symmetric := false

/-- The entry of order 10 of the geometry `2_3`,
sfepy/discrete/quadratures.py:435-460. -/
def t23o10 : Entry where
  order := 10
  rows := [
    ([dc 333333333333333 15, dc 333333333333333 15], dc 90817990382754 15),
    ([dc 485577633383657 15, dc 485577633383657 15], dc 36725957756467 15),
    ([dc 28844733232685 15, dc 485577633383657 15], dc 36725957756467 15),
    ([dc 485577633383657 15, dc 28844733232685 15], dc 36725957756467 15),
    ([dc 109481575485037 15, dc 109481575485037 15], dc 45321059435528 15),
    ([dc 781036849029926 15, dc 109481575485037 15], dc 45321059435528 15),
    ([dc 109481575485037 15, dc 781036849029926 15], dc 45321059435528 15),
    ([dc 307939838764121 15, dc 550352941820999 15], dc 7275791684542 14),
    ([dc 550352941820999 15, dc 307939838764121 15], dc 7275791684542 14),
    ([dc 14170721941488 14, dc 550352941820999 15], dc 7275791684542 14),
    ([dc 550352941820999 15, dc 14170721941488 14], dc 7275791684542 14),
    ([dc 307939838764121 15, dc 14170721941488 14], dc 7275791684542 14),
    ([dc 14170721941488 14, dc 307939838764121 15], dc 7275791684542 14),
    ([dc 246672560639903 15, dc 728323904597411 15], dc 28327242531057 15),
    ([dc 728323904597411 15, dc 246672560639903 15], dc 28327242531057 15),
    ([dc 25003534762686 15, dc 728323904597411 15], dc 28327242531057 15),
    ([dc 728323904597411 15, dc 25003534762686 15], dc 28327242531057 15),
    ([dc 246672560639903 15, dc 25003534762686 15], dc 28327242531057 15),
    ([dc 25003534762686 15, dc 246672560639903 15], dc 28327242531057 15),
    ([dc 668032510122 13, dc 9236559335875 13], dc 9421666963733 15),
    ([dc 9236559335875 13, dc 668032510122 13], dc 9421666963733 15),
    ([dc 9540815400299 15, dc 9236559335875 13], dc 9421666963733 15),
    ([dc 9236559335875 13, dc 9540815400299 15], dc 9421666963733 15),
    ([dc 668032510122 13, dc 9540815400299 15], dc 9421666963733 15),
    ([dc 9540815400299 15, dc 668032510122 13], dc 9421666963733 15)]
  bounds := false
  tpFix := dc 5 1
  weightFix := dc 5 1
  symmetric := false

/-- The entry of order 12 of the geometry `2_3`,
sfepy/discrete/quadratures.py:461-494. -/
def t23o12 : Entry where
  order := 12
  rows := [
    ([dc 488217389773805 15, dc 488217389773805 15], dc 25731066440455 15),
    ([dc 2356522045239 14, dc 488217389773805 15], dc 25731066440455 15),
    ([dc 488217389773805 15, dc 2356522045239 14], dc 25731066440455 15),
    ([dc 43972439229446 14, dc 43972439229446 14], dc 43692544538038 15),
    ([dc 120551215411079 15, dc 43972439229446 14], dc 43692544538038 15),
    ([dc 43972439229446 14, dc 120551215411079 15], dc 43692544538038 15),
    ([dc 271210385012116 15, dc 271210385012116 15], dc 62858224217885 15),
    ([dc 457579229975768 15, dc 271210385012116 15], dc 62858224217885 15),
    ([dc 271210385012116 15, dc 457579229975768 15], dc 62858224217885 15),
    ([dc 127576145541586 15, dc 127576145541586 15], dc 34796112930709 15),
    ([dc 744847708916828 15, dc 127576145541586 15], dc 34796112930709 15),
    ([dc 127576145541586 15, dc 744847708916828 15], dc 34796112930709 15),
    ([dc 2131735045321 14, dc 2131735045321 14], dc 6166261051559 15),
    ([dc 957365299093579 15, dc 2131735045321 14], dc 6166261051559 15),
    ([dc 2131735045321 14, dc 957365299093579 15], dc 6166261051559 15),
    ([dc 275713269685514 15, dc 608943235779788 15], dc 40371557766381 15),
    ([dc 608943235779788 15, dc 275713269685514 15], dc 40371557766381 15),
    ([dc 115343494534698 15, dc 608943235779788 15], dc 40371557766381 15),
    ([dc 608943235779788 15, dc 115343494534698 15], dc 40371557766381 15),
    ([dc 275713269685514 15, dc 115343494534698 15], dc 40371557766381 15),
    ([dc 115343494534698 15, dc 275713269685514 15], dc 40371557766381 15),
    ([dc 28132558098994 14, dc 695836086787803 15], dc 22356773202303 15),
    ([dc 695836086787803 15, dc 28132558098994 14], dc 22356773202303 15),
    ([dc 22838332222257 15, dc 695836086787803 15], dc 22356773202303 15),
    ([dc 695836086787803 15, dc 22838332222257 15], dc 22356773202303 15),
    ([dc 28132558098994 14, dc 22838332222257 15], dc 22356773202303 15),
    ([dc 22838332222257 15, dc 28132558098994 14], dc 22356773202303 15),
    ([dc 116251915907597 15, dc 858014033544073 15], dc 17316231108659 15),
    ([dc 858014033544073 15, dc 116251915907597 15], dc 17316231108659 15),
    ([dc 2573405054833 14, dc 858014033544073 15], dc 17316231108659 15),
    ([dc 858014033544073 15, dc 2573405054833 14], dc 17316231108659 15),
    ([dc 116251915907597 15, dc 2573405054833 14], dc 17316231108659 15),
    ([dc 2573405054833 14, dc 116251915907597 15], dc 17316231108659 15)]
  bounds := false
  tpFix := dc 5 1
  weightFix := dc 5 1
  symmetric := false

/-- The entry of order 13 of the geometry `2_3`,
sfepy/discrete/quadratures.py:495-532. -/
def t23o13 : Entry where
  order := 13
  rows := [
    ([dc 333333333333333 15, dc 333333333333333 15], dc 52520923400802 15),
    ([dc 495048184939705 15, dc 495048184939705 15], dc 1128014520933 14),
    ([dc 9903630120591 15, dc 495048184939705 15], dc 1128014520933 14),
    ([dc 495048184939705 15, dc 9903630120591 15], dc 1128014520933 14),
    ([dc 468716635109574 15, dc 468716635109574 15], dc 31423518362454 15),
    ([dc 62566729780852 15, dc 468716635109574 15], dc 31423518362454 15),
    ([dc 468716635109574 15, dc 62566729780852 15], dc 31423518362454 15),
    ([dc 414521336801277 15, dc 414521336801277 15], dc 47072502504194 15),
    ([dc 170957326397447 15, dc 414521336801277 15], dc 47072502504194 15),
    ([dc 414521336801277 15, dc 170957326397447 15], dc 47072502504194 15),
    ([dc 229399572042831 15, dc 229399572042831 15], dc 47363586536355 15),
    ([dc 541200855914337 15, dc 229399572042831 15], dc 47363586536355 15),
    ([dc 229399572042831 15, dc 541200855914337 15], dc 47363586536355 15),
    ([dc 11442449519633 14, dc 11442449519633 14], dc 31167529045794 15),
    ([dc 77115100960734 14, dc 11442449519633 14], dc 31167529045794 15),
    ([dc 11442449519633 14, dc 77115100960734 14], dc 31167529045794 15),
    ([dc 24811391363459 15, dc 24811391363459 15], dc 7975771465074 15),
    ([dc 950377217273082 15, dc 24811391363459 15], dc 7975771465074 15),
    ([dc 24811391363459 15, dc 950377217273082 15], dc 7975771465074 15),
    ([dc 268794997058761 15, dc 63635117456166 14], dc 36848402728732 15),
    ([dc 63635117456166 14, dc 268794997058761 15], dc 36848402728732 15),
    ([dc 94853828379579 15, dc 63635117456166 14], dc 36848402728732 15),
    ([dc 63635117456166 14, dc 94853828379579 15], dc 36848402728732 15),
    ([dc 268794997058761 15, dc 94853828379579 15], dc 36848402728732 15),
    ([dc 94853828379579 15, dc 268794997058761 15], dc 36848402728732 15),
    ([dc 291730066734288 15, dc 690169159986905 15], dc 17401463303822 15),
    ([dc 690169159986905 15, dc 291730066734288 15], dc 17401463303822 15),
    ([dc 18100773278807 15, dc 690169159986905 15], dc 17401463303822 15),
    ([dc 690169159986905 15, dc 18100773278807 15], dc 17401463303822 15),
    ([dc 291730066734288 15, dc 18100773278807 15], dc 17401463303822 15),
    ([dc 18100773278807 15, dc 291730066734288 15], dc 17401463303822 15),
    ([dc 126357385491669 15, dc 851409537834241 15], dc 15521786839045 15),
    ([dc 851409537834241 15, dc 126357385491669 15], dc 15521786839045 15),
    ([dc 2223307667409 14, dc 851409537834241 15], dc 15521786839045 15),
    ([dc 851409537834241 15, dc 2223307667409 14], dc 15521786839045 15),
    ([dc 126357385491669 15, dc 2223307667409 14], dc 15521786839045 15),
    ([dc 2223307667409 14, dc 126357385491669 15], dc 15521786839045 15)]
  bounds := false
  tpFix := dc 5 1
  weightFix := dc 5 1
  symmetric := false

/-- The entry of order 14 of the geometry `2_3`,
sfepy/discrete/quadratures.py:533-575. -/
def t23o14 : Entry where
  order := 14
  rows := [
    ([dc 488963910362179 15, dc 488963910362179 15], dc 21883581369429 15),
    ([dc 22072179275643 15, dc 488963910362179 15], dc 21883581369429 15),
    ([dc 488963910362179 15, dc 22072179275643 15], dc 21883581369429 15),
    ([dc 417644719340454 15, dc 417644719340454 15], dc 32788353544125 15),
    ([dc 164710561319092 15, dc 417644719340454 15], dc 32788353544125 15),
    ([dc 417644719340454 15, dc 164710561319092 15], dc 32788353544125 15),
    ([dc 273477528308839 15, dc 273477528308839 15], dc 51774104507292 15),
    ([dc 453044943382323 15, dc 273477528308839 15], dc 51774104507292 15),
    ([dc 273477528308839 15, dc 453044943382323 15], dc 51774104507292 15),
    ([dc 177205532412543 15, dc 177205532412543 15], dc 42162588736993 15),
    ([dc 645588935174913 15, dc 177205532412543 15], dc 42162588736993 15),
    ([dc 177205532412543 15, dc 645588935174913 15], dc 42162588736993 15),
    ([dc 61799883090873 15, dc 61799883090873 15], dc 14433699669777 15),
    ([dc 876400233818255 15, dc 61799883090873 15], dc 14433699669777 15),
    ([dc 61799883090873 15, dc 876400233818255 15], dc 14433699669777 15),
    ([dc 19390961248701 15, dc 19390961248701 15], dc 49234036024 13),
    ([dc 961218077502598 15, dc 19390961248701 15], dc 49234036024 13),
    ([dc 19390961248701 15, dc 961218077502598 15], dc 49234036024 13),
    ([dc 172266687821356 15, dc 770608554774996 15], dc 24665753212564 15),
    ([dc 770608554774996 15, dc 172266687821356 15], dc 24665753212564 15),
    ([dc 57124757403648 15, dc 770608554774996 15], dc 24665753212564 15),
    ([dc 770608554774996 15, dc 57124757403648 15], dc 24665753212564 15),
    ([dc 172266687821356 15, dc 57124757403648 15], dc 24665753212564 15),
    ([dc 57124757403648 15, dc 172266687821356 15], dc 24665753212564 15),
    ([dc 336861459796345 15, dc 570222290846683 15], dc 38571510787061 15),
    ([dc 570222290846683 15, dc 336861459796345 15], dc 38571510787061 15),
    ([dc 92916249356972 15, dc 570222290846683 15], dc 38571510787061 15),
    ([dc 570222290846683 15, dc 92916249356972 15], dc 38571510787061 15),
    ([dc 336861459796345 15, dc 92916249356972 15], dc 38571510787061 15),
    ([dc 92916249356972 15, dc 336861459796345 15], dc 38571510787061 15),
    ([dc 298372882136258 15, dc 686980167808088 15], dc 14436308113534 15),
    ([dc 686980167808088 15, dc 298372882136258 15], dc 14436308113534 15),
    ([dc 14646950055654 15, dc 686980167808088 15], dc 14436308113534 15),
    ([dc 686980167808088 15, dc 14646950055654 15], dc 14436308113534 15),
    ([dc 298372882136258 15, dc 14646950055654 15], dc 14436308113534 15),
    ([dc 14646950055654 15, dc 298372882136258 15], dc 14436308113534 15),
    ([dc 118974497696957 15, dc 879757171370171 15], dc 5010228838501 15),
    ([dc 879757171370171 15, dc 118974497696957 15], dc 5010228838501 15),
    ([dc 1268330932872 15, dc 879757171370171 15], dc 5010228838501 15),
    ([dc 879757171370171 15, dc 1268330932872 15], dc 5010228838501 15),
    ([dc 118974497696957 15, dc 1268330932872 15], dc 5010228838501 15),
    ([dc 1268330932872 15, dc 118974497696957 15], dc 5010228838501 15)]
  bounds := false
  tpFix := dc 5 1
  weightFix := dc 5 1
  symmetric := false

/-- The entry of order 17 of the geometry `2_3`,
sfepy/discrete/quadratures.py:576-637. -/
def t23o17 : Entry where
  order := 17
  rows := [
    ([dc 333333333333333 15, dc 333333333333333 15], dc 33437199290803 15),
    ([dc 497170540556774 15, dc 497170540556774 15], dc 5093415440507 15),
    ([dc 5658918886452 15, dc 497170540556774 15], dc 5093415440507 15),
    ([dc 497170540556774 15, dc 5658918886452 15], dc 5093415440507 15),
    ([dc 482176322624625 15, dc 482176322624625 15], dc 14670864527638 15),
    ([dc 35647354750751 15, dc 482176322624625 15], dc 14670864527638 15),
    ([dc 482176322624625 15, dc 35647354750751 15], dc 14670864527638 15),
    ([dc 450239969020782 15, dc 450239969020782 15], dc 24350878353672 15),
    ([dc 99520061958437 15, dc 450239969020782 15], dc 24350878353672 15),
    ([dc 450239969020782 15, dc 99520061958437 15], dc 24350878353672 15),
    ([dc 400266239377397 15, dc 400266239377397 15], dc 31107550868969 15),
    ([dc 199467521245206 15, dc 400266239377397 15], dc 31107550868969 15),
    ([dc 400266239377397 15, dc 199467521245206 15], dc 31107550868969 15),
    ([dc 252141267970953 15, dc 252141267970953 15], dc 3125711121862 14),
    ([dc 495717464058095 15, dc 252141267970953 15], dc 3125711121862 14),
    ([dc 252141267970953 15, dc 495717464058095 15], dc 3125711121862 14),
    ([dc 162047004658461 15, dc 162047004658461 15], dc 24815654339665 15),
    ([dc 675905990683077 15, dc 162047004658461 15], dc 24815654339665 15),
    ([dc 162047004658461 15, dc 675905990683077 15], dc 24815654339665 15),
    ([dc 75875882260746 15, dc 75875882260746 15], dc 14056073070557 15),
    ([dc 848248235478508 15, dc 75875882260746 15], dc 14056073070557 15),
    ([dc 75875882260746 15, dc 848248235478508 15], dc 14056073070557 15),
    ([dc 15654726967822 15, dc 15654726967822 15], dc 3194676173779 15),
    ([dc 968690546064356 15, dc 15654726967822 15], dc 3194676173779 15),
    ([dc 15654726967822 15, dc 968690546064356 15], dc 3194676173779 15),
    ([dc 334319867363658 15, dc 655493203809423 15], dc 8119655318993 15),
    ([dc 655493203809423 15, dc 334319867363658 15], dc 8119655318993 15),
    ([dc 10186928826919 15, dc 655493203809423 15], dc 8119655318993 15),
    ([dc 655493203809423 15, dc 10186928826919 15], dc 8119655318993 15),
    ([dc 334319867363658 15, dc 10186928826919 15], dc 8119655318993 15),
    ([dc 10186928826919 15, dc 334319867363658 15], dc 8119655318993 15),
    ([dc 292221537796944 15, dc 57233759053202 14], dc 26805742283163 15),
    ([dc 57233759053202 14, dc 292221537796944 15], dc 26805742283163 15),
    ([dc 135440871671036 15, dc 57233759053202 14], dc 26805742283163 15),
    ([dc 57233759053202 14, dc 135440871671036 15], dc 26805742283163 15),
    ([dc 292221537796944 15, dc 135440871671036 15], dc 26805742283163 15),
    ([dc 135440871671036 15, dc 292221537796944 15], dc 26805742283163 15),
    ([dc 31957488542319 14, dc 626001190286228 15], dc 18459993210822 15),
    ([dc 626001190286228 15, dc 31957488542319 14], dc 18459993210822 15),
    ([dc 54423924290583 15, dc 626001190286228 15], dc 18459993210822 15),
    ([dc 626001190286228 15, dc 54423924290583 15], dc 18459993210822 15),
    ([dc 31957488542319 14, dc 54423924290583 15], dc 18459993210822 15),
    ([dc 54423924290583 15, dc 31957488542319 14], dc 18459993210822 15),
    ([dc 190704224192292 15, dc 796427214974071 15], dc 8476868534328 15),
    ([dc 796427214974071 15, dc 190704224192292 15], dc 8476868534328 15),
    ([dc 12868560833637 15, dc 796427214974071 15], dc 8476868534328 15),
    ([dc 796427214974071 15, dc 12868560833637 15], dc 8476868534328 15),
    ([dc 190704224192292 15, dc 12868560833637 15], dc 8476868534328 15),
    ([dc 12868560833637 15, dc 190704224192292 15], dc 8476868534328 15),
    ([dc 180483211648746 15, dc 752351005937729 15], dc 18292796770025 15),
    ([dc 752351005937729 15, dc 180483211648746 15], dc 18292796770025 15),
    ([dc 67165782413524 15, dc 752351005937729 15], dc 18292796770025 15),
    ([dc 752351005937729 15, dc 67165782413524 15], dc 18292796770025 15),
    ([dc 180483211648746 15, dc 67165782413524 15], dc 18292796770025 15),
    ([dc 67165782413524 15, dc 180483211648746 15], dc 18292796770025 15),
    ([dc 80711313679564 15, dc 904625504095608 15], dc 6665632004165 15),
    ([dc 904625504095608 15, dc 80711313679564 15], dc 6665632004165 15),
    ([dc 14663182224828 15, dc 904625504095608 15], dc 6665632004165 15),
    ([dc 904625504095608 15, dc 14663182224828 15], dc 6665632004165 15),
    ([dc 80711313679564 15, dc 14663182224828 15], dc 6665632004165 15),
    ([dc 14663182224828 15, dc 80711313679564 15], dc 6665632004165 15)]
  bounds := false
  tpFix := dc 5 1
  weightFix := dc 5 1
  symmetric := false

/-- The entry of order 19 of the geometry `2_3`,
sfepy/discrete/quadratures.py:638-711. -/
def t23o19 : Entry where
  order := 19
  rows := [
    ([dc 333333333333333 15, dc 333333333333333 15], dc 32906331388919 15),
    ([dc 489609987073006 15, dc 489609987073006 15], dc 10330731891272 15),
    ([dc 20780025853987 15, dc 489609987073006 15], dc 10330731891272 15),
    ([dc 489609987073006 15, dc 20780025853987 15], dc 10330731891272 15),
    ([dc 454536892697893 15, dc 454536892697893 15], dc 22387247263016 15),
    ([dc 90926214604215 15, dc 454536892697893 15], dc 22387247263016 15),
    ([dc 454536892697893 15, dc 90926214604215 15], dc 22387247263016 15),
    ([dc 401416680649431 15, dc 401416680649431 15], dc 30266125869468 15),
    ([dc 197166638701138 15, dc 401416680649431 15], dc 30266125869468 15),
    ([dc 401416680649431 15, dc 197166638701138 15], dc 30266125869468 15),
    ([dc 255551654403098 15, dc 255551654403098 15], dc 30490967802198 15),
    ([dc 488896691193805 15, dc 255551654403098 15], dc 30490967802198 15),
    ([dc 255551654403098 15, dc 488896691193805 15], dc 30490967802198 15),
    ([dc 17707794215213 14, dc 17707794215213 14], dc 24159212741641 15),
    ([dc 645844115695741 15, dc 17707794215213 14], dc 24159212741641 15),
    ([dc 17707794215213 14, dc 645844115695741 15], dc 24159212741641 15),
    ([dc 110061053227952 15, dc 110061053227952 15], dc 16050803586801 15),
    ([dc 779877893544096 15, dc 110061053227952 15], dc 16050803586801 15),
    ([dc 110061053227952 15, dc 779877893544096 15], dc 16050803586801 15),
    ([dc 5552862425184 14, dc 5552862425184 14], dc 8084580261784 15),
    ([dc 888942751496321 15, dc 5552862425184 14], dc 8084580261784 15),
    ([dc 5552862425184 14, dc 888942751496321 15], dc 8084580261784 15),
    ([dc 12621863777229 15, dc 12621863777229 15], dc 2079362027485 15),
    ([dc 974756272445543 15, dc 12621863777229 15], dc 2079362027485 15),
    ([dc 12621863777229 15, dc 974756272445543 15], dc 2079362027485 15),
    ([dc 395754787356943 15, dc 600633794794645 15], dc 3884876904981 15),
    ([dc 600633794794645 15, dc 395754787356943 15], dc 3884876904981 15),
    ([dc 3611417848412 15, dc 600633794794645 15], dc 3884876904981 15),
    ([dc 600633794794645 15, dc 3611417848412 15], dc 3884876904981 15),
    ([dc 395754787356943 15, dc 3611417848412 15], dc 3884876904981 15),
    ([dc 3611417848412 15, dc 395754787356943 15], dc 3884876904981 15),
    ([dc 307929983880436 15, dc 557603261588784 15], dc 25574160612022 15),
    ([dc 557603261588784 15, dc 307929983880436 15], dc 25574160612022 15),
    ([dc 13446675453078 14, dc 557603261588784 15], dc 25574160612022 15),
    ([dc 557603261588784 15, dc 13446675453078 14], dc 25574160612022 15),
    ([dc 307929983880436 15, dc 13446675453078 14], dc 25574160612022 15),
    ([dc 13446675453078 14, dc 307929983880436 15], dc 25574160612022 15),
    ([dc 26456694840652 14, dc 720987025817365 15], dc 8880903573338 15),
    ([dc 720987025817365 15, dc 26456694840652 14], dc 8880903573338 15),
    ([dc 14446025776115 15, dc 720987025817365 15], dc 8880903573338 15),
    ([dc 720987025817365 15, dc 14446025776115 15], dc 8880903573338 15),
    ([dc 26456694840652 14, dc 14446025776115 15], dc 8880903573338 15),
    ([dc 14446025776115 15, dc 26456694840652 14], dc 8880903573338 15),
    ([dc 358539352205951 15, dc 594527068955871 15], dc 16124546761731 15),
    ([dc 594527068955871 15, dc 358539352205951 15], dc 16124546761731 15),
    ([dc 46933578838178 15, dc 594527068955871 15], dc 16124546761731 15),
    ([dc 594527068955871 15, dc 46933578838178 15], dc 16124546761731 15),
    ([dc 358539352205951 15, dc 46933578838178 15], dc 16124546761731 15),
    ([dc 46933578838178 15, dc 358539352205951 15], dc 16124546761731 15),
    ([dc 157807405968595 15, dc 839331473680839 15], dc 2491941817491 15),
    ([dc 839331473680839 15, dc 157807405968595 15], dc 2491941817491 15),
    ([dc 2861120350567 15, dc 839331473680839 15], dc 2491941817491 15),
    ([dc 839331473680839 15, dc 2861120350567 15], dc 2491941817491 15),
    ([dc 157807405968595 15, dc 2861120350567 15], dc 2491941817491 15),
    ([dc 2861120350567 15, dc 157807405968595 15], dc 2491941817491 15),
    ([dc 75050596975911 15, dc 701087978926173 15], dc 18242840118951 15),
    ([dc 701087978926173 15, dc 75050596975911 15], dc 18242840118951 15),
    ([dc 223861424097916 15, dc 701087978926173 15], dc 18242840118951 15),
    ([dc 701087978926173 15, dc 223861424097916 15], dc 18242840118951 15),
    ([dc 75050596975911 15, dc 223861424097916 15], dc 18242840118951 15),
    ([dc 223861424097916 15, dc 75050596975911 15], dc 18242840118951 15),
    ([dc 142421601113383 15, dc 822931324069857 15], dc 10258563736199 15),
    ([dc 822931324069857 15, dc 142421601113383 15], dc 10258563736199 15),
    ([dc 3464707481676 14, dc 822931324069857 15], dc 10258563736199 15),
    ([dc 822931324069857 15, dc 3464707481676 14], dc 10258563736199 15),
    ([dc 142421601113383 15, dc 3464707481676 14], dc 10258563736199 15),
    ([dc 3464707481676 14, dc 142421601113383 15], dc 10258563736199 15),
    ([dc 65494628082938 15, dc 924344252620784 15], dc 3799928855302 15),
    ([dc 924344252620784 15, dc 65494628082938 15], dc 3799928855302 15),
    ([dc 10161119296278 15, dc 924344252620784 15], dc 3799928855302 15),
    ([dc 924344252620784 15, dc 10161119296278 15], dc 3799928855302 15),
    ([dc 65494628082938 15, dc 10161119296278 15], dc 3799928855302 15),
    ([dc 10161119296278 15, dc 65494628082938 15], dc 3799928855302 15)]
  bounds := false
  tpFix := dc 5 1
  weightFix := dc 5 1
  symmetric := false

/-- The entry of order 2 of the geometry `2_4`,
sfepy/discrete/quadratures.py:716-718. -/
def t24o2 : Entry where
  order := 2
  rows := [
    ([.sqrt 2 3, dc 0 0], .div (dc 4 0) (dc 3 0)),
    ([.div (.neg (dc 1 0)) (.sqrt 6 1), .div (dc 1 0) (.sqrt 2 1)], .div (dc 4 0) (dc 3 0)),
    ([.div (.neg (dc 1 0)) (.sqrt 6 1), .div (.neg (dc 1 0)) (.sqrt 2 1)], .div (dc 4 0) (dc 3 0))]
  bounds := true
  tpFix := dc 1 0
  weightFix := dc 1 0
  symmetric := false

/-- The entry of order 3 of the geometry `2_4`,
sfepy/discrete/quadratures.py:720-723. -/
def t24o3 : Entry where
  order := 3
  rows := [
    ([.div (.neg (dc 1 0)) (.sqrt 3 1), .div (.neg (dc 1 0)) (.sqrt 3 1)], dc 1 0),
    ([.div (dc 1 0) (.sqrt 3 1), .div (.neg (dc 1 0)) (.sqrt 3 1)], dc 1 0),
    ([.div (dc 1 0) (.sqrt 3 1), .div (dc 1 0) (.sqrt 3 1)], dc 1 0),
    ([.div (.neg (dc 1 0)) (.sqrt 3 1), .div (dc 1 0) (.sqrt 3 1)], dc 1 0)]
  bounds := true
  tpFix := dc 1 0
  weightFix := dc 1 0
  symmetric := false

/-- The entry of order 5 of the geometry `2_4`,
sfepy/discrete/quadratures.py:725-732. -/
def t24o5 : Entry where
  order := 5
  rows := [
    ([.sqrt 7 15, dc 0 0], dc 816326530612245 15),
    ([.neg (.sqrt 7 15), dc 0 0], dc 816326530612245 15),
    ([dc 0 0, .sqrt 7 15], dc 816326530612245 15),
    ([dc 0 0, .neg (.sqrt 7 15)], dc 816326530612245 15),
    ([dc 881917103688197 15, dc 881917103688197 15], dc 183673469387755 15),
    ([dc 881917103688197 15, .neg (dc 881917103688197 15)], dc 183673469387755 15),
    ([.neg (dc 881917103688197 15), dc 881917103688197 15], dc 183673469387755 15),
    ([.neg (dc 881917103688197 15), .neg (dc 881917103688197 15)], dc 183673469387755 15)]
  bounds := true
  tpFix := dc 1 0
  weightFix := dc 1 0
  symmetric := false

/-- The entry of order 1 of the geometry `3_4`,
sfepy/discrete/quadratures.py:737-737. -/
def t34o1 : Entry where
  order := 1
  rows := [
    ([.div (dc 1 0) (dc 4 0), .div (dc 1 0) (dc 4 0), .div (dc 1 0) (dc 4 0)], .div (dc 1 0) (dc 6 0))]
  bounds := false
  tpFix := .div (dc 1 0) (dc 6 0)
  weightFix := dc 1 0
  symmetric := false

/-- The entry of order 2 of the geometry `3_4`,
sfepy/discrete/quadratures.py:739-742. -/
def t34o2 : Entry where
  order := 2
  rows := [
    ([.div (.sub (dc 5 0) (.sqrt 5 1)) (dc 20 0), .div (.sub (dc 5 0) (.sqrt 5 1)) (dc 20 0), .div (.sub (dc 5 0) (.sqrt 5 1)) (dc 20 0)], .div (dc 1 0) (dc 24 0)),
    ([.div (.sub (dc 5 0) (.sqrt 5 1)) (dc 20 0), .div (.sub (dc 5 0) (.sqrt 5 1)) (dc 20 0), .div (.add (dc 5 0) (.mul (dc 3 0) (.sqrt 5 1))) (dc 20 0)], .div (dc 1 0) (dc 24 0)),
    ([.div (.sub (dc 5 0) (.sqrt 5 1)) (dc 20 0), .div (.add (dc 5 0) (.mul (dc 3 0) (.sqrt 5 1))) (dc 20 0), .div (.sub (dc 5 0) (.sqrt 5 1)) (dc 20 0)], .div (dc 1 0) (dc 24 0)),
    ([.div (.add (dc 5 0) (.mul (dc 3 0) (.sqrt 5 1))) (dc 20 0), .div (.sub (dc 5 0) (.sqrt 5 1)) (dc 20 0), .div (.sub (dc 5 0) (.sqrt 5 1)) (dc 20 0)], .div (dc 1 0) (dc 24 0))]
  bounds := false
  tpFix := .div (dc 1 0) (dc 6 0)
  weightFix := dc 1 0
  symmetric := false

/-- The entry of order 3 of the geometry `3_4`,
sfepy/discrete/quadratures.py:744-748. -/
def t34o3 : Entry where
  order := 3
  rows := [
    ([.div (dc 1 0) (dc 4 0), .div (dc 1 0) (dc 4 0), .div (dc 1 0) (dc 4 0)], .div (.neg (dc 2 0)) (dc 15 0)),
    ([.div (dc 1 0) (dc 6 0), .div (dc 1 0) (dc 6 0), .div (dc 1 0) (dc 6 0)], .div (dc 3 0) (dc 40 0)),
    ([.div (dc 1 0) (dc 6 0), .div (dc 1 0) (dc 6 0), .div (dc 1 0) (dc 2 0)], .div (dc 3 0) (dc 40 0)),
    ([.div (dc 1 0) (dc 6 0), .div (dc 1 0) (dc 2 0), .div (dc 1 0) (dc 6 0)], .div (dc 3 0) (dc 40 0)),
    ([.div (dc 1 0) (dc 2 0), .div (dc 1 0) (dc 6 0), .div (dc 1 0) (dc 6 0)], .div (dc 3 0) (dc 40 0))]
  bounds := false
  tpFix := .div (dc 1 0) (dc 6 0)
  weightFix := dc 1 0
  symmetric := false

/-- The entry of order 4 of the geometry `3_4`,
sfepy/discrete/quadratures.py:750-761. -/
def t34o4 : Entry where
  order := 4
  rows := [
    ([.neg (dc 5 1), .neg (dc 5 1), .neg (dc 5 1)], .neg (dc 105244444444444 15)),
    ([.neg (dc 857142857142857 15), .neg (dc 857142857142857 15), .neg (dc 857142857142857 15)], dc 60977777777778 15),
    ([.neg (dc 857142857142857 15), .neg (dc 857142857142857 15), dc 571428571428571 15], dc 60977777777778 15),
    ([.neg (dc 857142857142857 15), dc 571428571428571 15, .neg (dc 857142857142857 15)], dc 60977777777778 15),
    ([dc 571428571428571 15, .neg (dc 857142857142857 15), .neg (dc 857142857142857 15)], dc 60977777777778 15),
    ([.neg (dc 201192847666402 15), .neg (dc 201192847666402 15), .neg (dc 798807152333598 15)], dc 199111111111111 15),
    ([.neg (dc 201192847666402 15), .neg (dc 798807152333598 15), .neg (dc 201192847666402 15)], dc 199111111111111 15),
    ([.neg (dc 798807152333598 15), .neg (dc 201192847666402 15), .neg (dc 201192847666402 15)], dc 199111111111111 15),
    ([.neg (dc 201192847666402 15), .neg (dc 798807152333598 15), .neg (dc 798807152333598 15)], dc 199111111111111 15),
    ([.neg (dc 798807152333598 15), .neg (dc 201192847666402 15), .neg (dc 798807152333598 15)], dc 199111111111111 15),
    ([.neg (dc 798807152333598 15), .neg (dc 798807152333598 15), .neg (dc 201192847666402 15)], dc 199111111111111 15)]
  bounds := true
  tpFix := .div (dc 1 0) (dc 6 0)
  weightFix := dc 1 0
  symmetric := false

/-- The entry of order 6 of the geometry `3_4`,
sfepy/discrete/quadratures.py:763-787. -/
def t34o6 : Entry where
  order := 6
  rows := [
    ([.neg (dc 570794257481696 15), .neg (dc 570794257481696 15), .neg (dc 570794257481696 15)], dc 53230333677557 15),
    ([.neg (dc 287617227554912 15), .neg (dc 570794257481696 15), .neg (dc 570794257481696 15)], dc 53230333677557 15),
    ([.neg (dc 570794257481696 15), .neg (dc 287617227554912 15), .neg (dc 570794257481696 15)], dc 53230333677557 15),
    ([.neg (dc 570794257481696 15), .neg (dc 570794257481696 15), .neg (dc 287617227554912 15)], dc 53230333677557 15),
    ([.neg (dc 918652082930777 15), .neg (dc 918652082930777 15), .neg (dc 918652082930777 15)], dc 13436281407094 15),
    ([dc 755956248792332 15, .neg (dc 918652082930777 15), .neg (dc 918652082930777 15)], dc 13436281407094 15),
    ([.neg (dc 918652082930777 15), dc 755956248792332 15, .neg (dc 918652082930777 15)], dc 13436281407094 15),
    ([.neg (dc 918652082930777 15), .neg (dc 918652082930777 15), dc 755956248792332 15], dc 13436281407094 15),
    ([.neg (dc 355324219715449 15), .neg (dc 355324219715449 15), .neg (dc 355324219715449 15)], dc 7380957539154 14),
    ([.neg (dc 934027340853653 15), .neg (dc 355324219715449 15), .neg (dc 355324219715449 15)], dc 7380957539154 14),
    ([.neg (dc 355324219715449 15), .neg (dc 934027340853653 15), .neg (dc 355324219715449 15)], dc 7380957539154 14),
    ([.neg (dc 355324219715449 15), .neg (dc 355324219715449 15), .neg (dc 934027340853653 15)], dc 7380957539154 14),
    ([.neg (dc 872677996249965 15), .neg (dc 872677996249965 15), .neg (dc 460655337083368 15)], dc 64285714285714 15),
    ([.neg (dc 872677996249965 15), .neg (dc 460655337083368 15), .neg (dc 872677996249965 15)], dc 64285714285714 15),
    ([.neg (dc 872677996249965 15), .neg (dc 872677996249965 15), dc 206011329583298 15], dc 64285714285714 15),
    ([.neg (dc 872677996249965 15), dc 206011329583298 15, .neg (dc 872677996249965 15)], dc 64285714285714 15),
    ([.neg (dc 872677996249965 15), .neg (dc 460655337083368 15), dc 206011329583298 15], dc 64285714285714 15),
    ([.neg (dc 872677996249965 15), dc 206011329583298 15, .neg (dc 460655337083368 15)], dc 64285714285714 15),
    ([.neg (dc 460655337083368 15), .neg (dc 872677996249965 15), .neg (dc 872677996249965 15)], dc 64285714285714 15),
    ([.neg (dc 460655337083368 15), .neg (dc 872677996249965 15), dc 206011329583298 15], dc 64285714285714 15),
    ([.neg (dc 460655337083368 15), dc 206011329583298 15, .neg (dc 872677996249965 15)], dc 64285714285714 15),
    ([dc 206011329583298 15, .neg (dc 872677996249965 15), .neg (dc 460655337083368 15)], dc 64285714285714 15),
    ([dc 206011329583298 15, .neg (dc 872677996249965 15), .neg (dc 872677996249965 15)], dc 64285714285714 15),
    ([dc 206011329583298 15, .neg (dc 460655337083368 15), .neg (dc 872677996249965 15)], dc 64285714285714 15)]
  bounds := true
  tpFix := .div (dc 1 0) (dc 6 0)
  weightFix := dc 1 0
  symmetric := false

/-- The entry of order 3 of the geometry `3_6`,
sfepy/discrete/quadratures.py:792-793. -/
def t36o3 : Entry where
  order := 3
  rows := [
    ([.div (dc 1 0) (dc 3 0), .div (dc 1 0) (dc 3 0), dc 5 1], dc 5 1)]
  bounds := false
  tpFix := .div (dc 1 0) (dc 2 0)
  weightFix := dc 1 0
  symmetric := false

/-- The entry of order 6 of the geometry `3_6`,
sfepy/discrete/quadratures.py:794-800. -/
def t36o6 : Entry where
  order := 6
  rows := [
    ([.div (dc 1 0) (dc 6 0), .div (dc 1 0) (dc 6 0), dc 2113248654051871 16], .div (dc 1 0) (dc 12 0)),
    ([.div (dc 2 0) (dc 3 0), .div (dc 1 0) (dc 6 0), dc 2113248654051871 16], .div (dc 1 0) (dc 12 0)),
    ([.div (dc 1 0) (dc 6 0), .div (dc 2 0) (dc 3 0), dc 2113248654051871 16], .div (dc 1 0) (dc 12 0)),
    ([.div (dc 1 0) (dc 6 0), .div (dc 1 0) (dc 6 0), dc 7886751345948129 16], .div (dc 1 0) (dc 12 0)),
    ([.div (dc 2 0) (dc 3 0), .div (dc 1 0) (dc 6 0), dc 7886751345948129 16], .div (dc 1 0) (dc 12 0)),
    ([.div (dc 1 0) (dc 6 0), .div (dc 2 0) (dc 3 0), dc 7886751345948129 16], .div (dc 1 0) (dc 12 0))]
  bounds := false
  tpFix := .div (dc 1 0) (dc 2 0)
  weightFix := dc 1 0
  symmetric := false

/-- The entry of order 9 of the geometry `3_6`,
sfepy/discrete/quadratures.py:801-819. -/
def t36o9 : Entry where
  order := 9
  rows := [
    ([dc 1081030181680702 16, dc 4459484909159649 16, dc 1127016653792583 16], dc 310252207886127 16),
    ([dc 4459484909159649 16, dc 1081030181680702 16, dc 1127016653792583 16], dc 310252207886127 16),
    ([dc 4459484909159649 16, dc 4459484909159649 16, dc 1127016653792583 16], dc 310252207886127 16),
    ([dc 8168475729804585 16, dc 915762135097707 16, dc 1127016653792583 16], dc 152710755076836 16),
    ([dc 915762135097707 16, dc 8168475729804585 16, dc 1127016653792583 16], dc 152710755076836 16),
    ([dc 915762135097707 16, dc 915762135097707 16, dc 1127016653792583 16], dc 152710755076836 16),
    ([dc 1081030181680702 16, dc 4459484909159649 16, dc 5 1], dc 496403532617803 16),
    ([dc 4459484909159649 16, dc 1081030181680702 16, dc 5 1], dc 496403532617803 16),
    ([dc 4459484909159649 16, dc 4459484909159649 16, dc 5 1], dc 496403532617803 16),
    ([dc 8168475729804585 16, dc 915762135097707 16, dc 5 1], dc 244337208122937 16),
    ([dc 915762135097707 16, dc 8168475729804585 16, dc 5 1], dc 244337208122937 16),
    ([dc 915762135097707 16, dc 915762135097707 16, dc 5 1], dc 244337208122937 16),
    ([dc 1081030181680702 16, dc 4459484909159649 16, dc 8872983346207417 16], dc 310252207886127 16),
    ([dc 4459484909159649 16, dc 1081030181680702 16, dc 8872983346207417 16], dc 310252207886127 16),
    ([dc 4459484909159649 16, dc 4459484909159649 16, dc 8872983346207417 16], dc 310252207886127 16),
    ([dc 8168475729804585 16, dc 915762135097707 16, dc 8872983346207417 16], dc 152710755076836 16),
    ([dc 915762135097707 16, dc 8168475729804585 16, dc 8872983346207417 16], dc 152710755076836 16),
    ([dc 915762135097707 16, dc 915762135097707 16, dc 8872983346207417 16], dc 152710755076836 16)]
  bounds := false
  tpFix := .div (dc 1 0) (dc 2 0)
  weightFix := dc 1 0
  symmetric := false

/-- The entry of order 2 of the geometry `3_8`,
sfepy/discrete/quadratures.py:824-827. -/
def t38o2 : Entry where
  order := 2
  rows := [
    ([dc 0 0, .sqrt 2 3, .div (.neg (dc 1 0)) (.sqrt 3 1)], dc 2 0),
    ([dc 0 0, .neg (.sqrt 2 3), .div (.neg (dc 1 0)) (.sqrt 3 1)], dc 2 0),
    ([.sqrt 2 3, dc 0 0, .div (dc 1 0) (.sqrt 3 1)], dc 2 0),
    ([.neg (.sqrt 2 3), dc 0 0, .div (dc 1 0) (.sqrt 3 1)], dc 2 0)]
  bounds := true
  tpFix := dc 1 0
  weightFix := dc 1 0
  symmetric := false

/-- The entry of order 3 of the geometry `3_8`,
sfepy/discrete/quadratures.py:829-834. -/
def t38o3 : Entry where
  order := 3
  rows := [
    ([.neg (dc 1 0), dc 0 0, dc 0 0], .div (dc 4 0) (dc 3 0)),
    ([dc 1 0, dc 0 0, dc 0 0], .div (dc 4 0) (dc 3 0)),
    ([dc 0 0, .neg (dc 1 0), dc 0 0], .div (dc 4 0) (dc 3 0)),
    ([dc 0 0, dc 1 0, dc 0 0], .div (dc 4 0) (dc 3 0)),
    ([dc 0 0, dc 0 0, .neg (dc 1 0)], .div (dc 4 0) (dc 3 0)),
    ([dc 0 0, dc 0 0, dc 1 0], .div (dc 4 0) (dc 3 0))]
  bounds := true
  tpFix := dc 1 0
  weightFix := dc 1 0
  symmetric := false

/-- The entry of order 5 of the geometry `3_8`,
sfepy/discrete/quadratures.py:836-849. -/
def t38o5 : Entry where
  order := 5
  rows := [
    ([.neg (.sqrt 19 30), dc 0 0, dc 0 0], .div (dc 320 0) (dc 361 0)),
    ([.sqrt 19 30, dc 0 0, dc 0 0], .div (dc 320 0) (dc 361 0)),
    ([dc 0 0, .neg (.sqrt 19 30), dc 0 0], .div (dc 320 0) (dc 361 0)),
    ([dc 0 0, .sqrt 19 30, dc 0 0], .div (dc 320 0) (dc 361 0)),
    ([dc 0 0, dc 0 0, .neg (.sqrt 19 30)], .div (dc 320 0) (dc 361 0)),
    ([dc 0 0, dc 0 0, .sqrt 19 30], .div (dc 320 0) (dc 361 0)),
    ([.sqrt 19 33, .sqrt 19 33, .sqrt 19 33], .div (dc 121 0) (dc 361 0)),
    ([.sqrt 19 33, .sqrt 19 33, .neg (.sqrt 19 33)], .div (dc 121 0) (dc 361 0)),
    ([.sqrt 19 33, .neg (.sqrt 19 33), .sqrt 19 33], .div (dc 121 0) (dc 361 0)),
    ([.sqrt 19 33, .neg (.sqrt 19 33), .neg (.sqrt 19 33)], .div (dc 121 0) (dc 361 0)),
    ([.neg (.sqrt 19 33), .sqrt 19 33, .sqrt 19 33], .div (dc 121 0) (dc 361 0)),
    ([.neg (.sqrt 19 33), .sqrt 19 33, .neg (.sqrt 19 33)], .div (dc 121 0) (dc 361 0)),
    ([.neg (.sqrt 19 33), .neg (.sqrt 19 33), .sqrt 19 33], .div (dc 121 0) (dc 361 0)),
    ([.neg (.sqrt 19 33), .neg (.sqrt 19 33), .neg (.sqrt 19 33)], .div (dc 121 0) (dc 361 0))]
  bounds := true
  tpFix := dc 1 0
  weightFix := dc 1 0
  symmetric := false

/-- `quadrature_tables`, sfepy/discrete/quadratures.py:240-851. -/
def tables : Geom → List Entry
  | .g01 => [t01o1]
  | .g12 => [t12o1, t12o3, t12o5, t12o7, t12o9, t12o11, t12o13, t12o15, t12o17, t12o19, t12o23, t12o31, t12o39, t12o47]
  | .g23 => [t23o1, t23o2, t23o3, t23o4, t23o5, t23o6, t23o7, t23o8, t23o9, t23o10, t23o12, t23o13, t23o14, t23o17, t23o19]
  | .g24 => [t24o2, t24o3, t24o5]
  | .g34 => [t34o1, t34o2, t34o3, t34o4, t34o6]
  | .g36 => [t36o3, t36o6, t36o9]
  | .g38 => [t38o2, t38o3, t38o5]

/-- `QuadraturePoints.from_table`, sfepy/discrete/quadratures.py:128-189, with the tables of the module. -/
noncomputable def fromTable (g : Geom) (order : ℕ) (full : Bool) : Option (Rule ℝ × ℕ) :=
  fromTableOf tables g order full

end Quad
