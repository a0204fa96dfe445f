import Verif.Proofs.Ieee
import Verif.Proofs.Basic
/-! The grids for which `1 - 2^-24` falls outside. -/
namespace Votess

/-- the coordinate `1 - 2^-24` gets a cell number in range -/
def topSafe (gr : Int) : Bool :=
  match gridCoord (FP.recip gr) (.fin (1 - 1 / 2 ^ 24) : F32) with
  | .ok i => decide (i < gr)
  | .error _ => false

/-- the grids, among those whose number of cells fits in `int`, for which `1 - 2^-24` falls outside -/
def badGrids : List Int :=
  [25, 31, 41, 47, 50, 55, 61, 62, 67, 71, 73, 82, 83, 94, 97, 100, 107, 109, 110, 115, 121,
   122, 123, 124, 129, 134, 135, 137, 141, 142, 143, 146, 147, 155, 159, 163, 164, 165, 166,
   173, 179, 183, 188, 189, 193, 194, 200, 201, 209, 214, 218, 219, 220, 227, 230, 235, 237,
   242, 243, 244, 245, 246, 248, 249, 257, 258, 259, 261, 263, 268, 269, 270, 274, 277, 281,
   282, 284, 286, 292, 293, 294, 295, 297, 301, 307, 310, 311, 313, 318, 319, 321, 323, 326,
   328, 330, 332, 346, 347, 355, 358, 361, 366, 371, 376, 378, 386, 388, 397, 400, 402, 418,
   425, 427, 428, 431, 436, 437, 438, 440, 454, 460, 463, 470, 474, 475, 477, 484, 486, 488,
   490, 492, 496, 497, 498, 503, 514, 516, 518, 521, 522, 523, 525, 526, 527, 531, 536, 538,
   540, 548, 549, 554, 559, 561, 562, 564, 567, 568, 571, 572, 581, 584, 586, 587, 588, 590,
   591, 594, 597, 599, 601, 602, 607, 614, 615, 617, 620, 622, 625, 626, 627, 636, 638, 642,
   646, 647, 652, 656, 660, 661, 664, 673, 677, 685, 691, 692, 694, 705, 710, 711, 716, 722,
   732, 739, 741, 742, 751, 752, 756, 761, 772, 776, 783, 787, 794, 800, 803, 804, 811, 833,
   836, 837, 847, 850, 853, 854, 856, 862, 863, 867, 872, 874, 876, 877, 879, 880, 883, 887,
   895, 899, 905, 908, 917, 919, 920, 926, 927, 933, 940, 948, 949, 950, 951, 953, 954, 968,
   972, 975, 976, 980, 981, 984, 992, 994, 996, 1006, 1011, 1028, 1029, 1032, 1035, 1036, 1037,
   1039, 1041, 1042, 1044, 1045, 1046, 1047, 1050, 1051, 1052, 1053, 1054, 1055, 1059, 1061,
   1062, 1063, 1069, 1072, 1076, 1077, 1080, 1087, 1089, 1091, 1093, 1095, 1096, 1097, 1098,
   1108, 1115, 1117, 1118, 1121, 1122, 1124, 1128, 1129, 1134, 1136, 1137, 1142, 1144, 1149,
   1162, 1168, 1171, 1172, 1174, 1175, 1176, 1177, 1180, 1181, 1182, 1187, 1188, 1191, 1194,
   1198, 1202, 1204, 1214, 1223, 1227, 1228, 1229, 1230, 1233, 1234, 1235, 1239, 1240, 1244,
   1249, 1250, 1252, 1254, 1265, 1267, 1272, 1275, 1276, 1281, 1284]

theorem badGrids_eq : badGrids = (irange 1 1291).filter fun gr => !topSafe gr := by
  decide +kernel

theorem topSafe_iff_table {gr : Int} (h1 : 1 ≤ gr) (h2 : gr ≤ 1290) :
    topSafe gr = true ↔ gr ∉ badGrids := by
  rw [badGrids_eq, List.mem_filter]
  have : gr ∈ irange 1 1291 := mem_irange.mpr ⟨h1, by omega⟩
  simp [this]

end Votess
