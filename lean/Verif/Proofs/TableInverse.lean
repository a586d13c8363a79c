import Verif.Model.Rk
/-
GENERATED by tools/gen_inverses.py: approximate inverses (to two digits) of the Butcher matrices.
-/
namespace Nosnoc

/-- An approximate inverse of the matrix of `generateButcher n s`. -/
def approxInverse (n : Nat) (s : IrkScheme) : List (List ℚ) :=
  match s, n with
  | .radauIIA, 1 => [[1]]
  | .radauIIA, 2 => [[(3/2), (1/2)],
      [(-9/2), (5/2)]]
  | .radauIIA, 3 => [[(161/50), (117/100), (-1/4)],
      [(-357/100), (39/50), (21/20)],
      [(553/100), (-753/100), 5]]
  | .radauIIA, 4 => [[(141/25), (48/25), (-59/100), (17/100)],
      [(-101/20), (61/50), (7/4), (-43/100)],
      [(349/100), (-199/50), (63/100), (91/50)],
      [(-173/25), (33/5), (-1217/100), (17/2)]]
  | .radauIIA, 5 => [[(219/25), (289/100), (-22/25), (2/5), (-13/100)],
      [(-179/25), (181/100), (59/25), (-87/100), (27/100)],
      [(103/25), (-9/2), (43/50), (63/25), (-33/50)],
      [(-97/25), (339/100), (-519/100), (29/50), (281/100)],
      [(841/100), (-697/100), (439/50), (-911/50), 13]]
  | .radauIIA, 6 => [[(314/25), (102/25), (-61/50), (57/100), (-31/100), (11/100)],
      [(-49/5), (253/100), (313/100), (-29/25), (29/50), (-1/5)],
      [(259/50), (-277/50), (57/50), (297/100), (-59/50), (19/50)],
      [(-411/100), (349/100), (-507/100), (18/25), (173/50), (-93/100)],
      [(439/100), (-173/50), (79/20), (-681/100), (11/20), (201/50)],
      [(-497/50), (192/25), (-823/100), (291/25), (-641/25), (37/2)]]
  | .radauIIA, 7 => [[(853/50), (137/25), (-81/50), (3/4), (-21/50), (1/4), (-9/100)],
      [(-259/20), (169/50), (81/20), (-149/100), (77/100), (-11/25), (4/25)],
      [(653/100), (-691/100), (37/25), (359/100), (-29/20), (77/100), (-27/100)],
      [(-119/25), (399/100), (-283/50), (89/100), (187/50), (-77/50), (51/100)],
      [(433/100), (-67/20), (369/100), (-151/25), (13/20), (229/50), (-31/25)],
      [(-247/50), (37/10), (-15/4), (239/50), (-439/50), (27/50), (136/25)],
      [(23/2), (-213/25), (419/50), (-1003/100), (1509/100), (-1721/50), 25]]
  | .radauIIA, 8 => [[(556/25), (709/100), (-52/25), (24/25), (-27/50), (17/50), (-21/100), (2/25)],
      [(-1659/100), (109/25), (128/25), (-93/50), (97/100), (-59/100), (9/25), (-7/50)],
      [(203/25), (-171/20), (47/25), (87/20), (-7/4), (24/25), (-57/100), (21/100)],
      [(-141/25), (469/100), (-657/100), (11/10), (211/50), (-179/100), (97/100), (-7/20)],
      [(237/50), (-363/100), (393/100), (-627/100), (77/100), (463/100), (-49/25), (33/50)],
      [(-93/20), (86/25), (-339/100), (104/25), (-363/50), (61/100), (587/100), (-161/100)],
      [(553/100), (-201/50), (19/5), (-427/100), (581/100), (-1109/100), (53/100), (709/100)],
      [(-653/50), (943/100), (-44/5), (961/100), (-1223/100), (478/25), (-1114/25), (65/2)]]
  | .radauIIA, 9 => [[(703/25), (223/25), (-13/5), (119/100), (-67/100), (21/50), (-7/25), (19/100), (-7/100)],
      [(-2073/100), (137/25), (317/50), (-229/100), (119/100), (-18/25), (47/100), (-31/100), (3/25)],
      [(497/50), (-521/50), (233/100), (523/100), (-209/100), (29/25), (-18/25), (23/50), (-17/100)],
      [(-669/100), (277/50), (-77/10), (67/50), (121/25), (-41/20), (117/100), (-71/100), (13/50)],
      [(134/25), (-409/100), (437/100), (-172/25), (23/25), (124/25), (-217/100), (6/5), (-43/100)],
      [(-487/100), (179/50), (-87/25), (419/100), (-357/50), (7/10), (283/50), (-61/25), (41/50)],
      [(251/50), (-361/100), (67/20), (-367/100), (479/100), (-87/10), (29/50), (733/100), (-203/100)],
      [(-613/100), (109/25), (-397/100), (83/20), (-124/25), 7, (-1371/100), (13/25), (224/25)],
      [(1463/100), (-519/50), (234/25), (-193/20), (559/50), (-1479/100), (2369/100), (-1121/20), 41]]
  | .gaussLegendre, 1 => [[2]]
  | .gaussLegendre, 2 => [[3, (23/50)],
      [(-323/50), 3]]
  | .gaussLegendre, 3 => [[5, (29/25), (-4/25)],
      [(-573/100), 2, (73/100)],
      [(254/25), (-229/25), 5]]
  | .gaussLegendre, 4 => [[(387/50), (41/20), (-11/25), (9/100)],
      [(-36/5), (113/50), (29/20), (-23/100)],
      [(317/50), (-597/100), (113/50), (109/100)],
      [(-389/25), (1189/100), (-27/2), (387/50)]]
  | .gaussLegendre, 5 => [[(559/50), (313/100), (-19/25), (6/25), (-1/20)],
      [(-189/20), (141/50), (111/50), (-14/25), (3/25)],
      [(321/50), (-311/50), 2, (187/100), (-8/25)],
      [(-401/50), (619/100), (-739/100), (141/50), (31/20)],
      [(1121/50), (-1619/100), (771/50), (-1909/100), (559/50)]]
  | .gaussLegendre, 6 => [[(1533/100), (443/100), (-57/50), (41/100), (-3/20), (1/25)],
      [(-1227/100), (71/20), (31/10), (-9/10), (31/100), (-7/100)],
      [(183/25), (-721/100), (53/25), (129/50), (-69/100), (3/20)],
      [(-141/20), (551/100), (-341/50), (53/25), (239/100), (-21/50)],
      [(256/25), (-371/50), (143/20), (-234/25), (71/20), (21/10)],
      [(-3069/100), (2157/100), (-963/50), (999/50), (-517/20), (1533/100)]]
  | .gaussLegendre, 7 => [[(504/25), (297/50), (-157/100), (61/100), (-27/100), (11/100), (-3/100)],
      [(-1563/100), (111/25), (413/100), (-127/100), (51/100), (-1/5), (1/20)],
      [(863/100), (-861/100), (239/100), (67/20), (-26/25), (37/100), (-9/100)],
      [(-363/50), (573/100), (-29/4), 2, (153/50), (-17/20), (19/100)],
      [(409/50), (-149/25), (583/100), (-793/100), (239/100), (151/50), (-53/100)],
      [(-1293/100), (909/100), (-813/100), (214/25), (-47/4), (111/25), (11/4)],
      [(807/20), (-2793/100), (2413/100), (-2343/100), (2543/100), (-844/25), (504/25)]]
  | .gaussLegendre, 8 => [[(2569/100), (383/50), (-207/100), (83/100), (-39/100), (19/100), (-2/25), (1/50)],
      [(-1949/100), (547/100), (132/25), (-169/100), (73/100), (-17/50), (7/50), (-1/25)],
      [(256/25), (-103/10), (69/25), (211/50), (-141/100), (59/100), (-6/25), (3/50)],
      [(-397/50), (631/100), (-81/10), (207/100), (94/25), (-61/50), (9/20), (-11/100)],
      [(781/100), (-143/25), (283/50), (-79/10), (207/100), (73/20), (-103/100), (23/100)],
      [(-963/100), (679/100), (-153/25), (131/20), (-234/25), (69/25), (15/4), (-67/100)],
      [(401/25), (-1109/100), (479/50), (-933/100), (257/25), (-363/25), (547/100), (349/100)],
      [(-5141/100), (881/25), (-597/20), 28, (-711/25), (3173/100), (-2141/50), (2569/100)]]
  | .gaussLegendre, 9 => [[(798/25), (48/5), (-131/50), (27/25), (-53/100), (7/25), (-7/50), (3/50), (-1/50)],
      [(-477/20), (166/25), (659/100), (-43/20), (97/100), (-12/25), (6/25), (-11/100), (3/100)],
      [(303/25), (-49/4), (321/100), (519/100), (-9/5), (41/50), (-39/100), (17/100), (-1/25)],
      [(-89/10), (71/10), (-461/50), (223/100), (453/100), (-157/100), (17/25), (-7/25), (7/100)],
      [(403/50), (-148/25), (148/25), (-42/5), 2, (429/100), (-71/50), (53/100), (-13/100)],
      [(-869/100), (307/50), (-557/100), (151/25), (-222/25), (223/100), (433/100), (-31/25), (7/25)],
      [(567/50), (-157/20), (34/5), (-167/25), (15/2), (-221/20), (321/100), (457/100), (-41/50)],
      [(-489/25), (1339/100), (-1133/100), (531/50), (-541/50), (307/25), (-1767/100), (166/25), (108/25)],
      [(1277/20), (-1087/25), (3637/100), (-3339/100), (1637/50), (-171/5), (777/20), (-2651/50), (798/25)]]
  | _, _ => []

end Nosnoc
