/-!
# Tables of the arithmetic decoder

Transcribed from `/repo/decoder/ia_core_coder_rom.c`; every entry is that of the C table.
-/

namespace Verif.Arith

/-- `ia_core_coder_esc_nb_offset`, ia_core_coder_rom.c 215 ff.: `(min(lev,7) << 17)` -/
def escNbOffset : List Nat := [
   0, 131072, 262144, 393216, 524288, 655360, 786432, 917504]

/-- `ia_core_coder_ari_cf_r`, ia_core_coder_rom.c 515 ff.: cumulative frequencies of the least significant bits -/
def cfR : List (List Nat) := [
  [
    12571, 10569, 3696, 0],
  [
    12661, 5700, 3751, 0],
  [
    10827, 6884, 2929, 0]]

/-- `ia_core_coder_ari_hash_m`, ia_core_coder_rom.c 570 ff.: contexts with a model of their own -/
def hashM : List Nat := [
   1, 3, 5, 7, 10, 15, 273, 4369, 4371, 4372, 4374, 4377, 4383, 4386, 4388, 4390, 4397, 4401,
   4403, 4405, 4409, 4417, 4420, 4422, 4431, 4454, 4463, 4468, 4607, 4625, 4627, 4628, 4630,
   4633, 4641, 4643, 4644, 4646, 4650, 4655, 4658, 4660, 4663, 4667, 4673, 4677, 4681, 4687,
   4693, 4703, 4709, 4792, 4881, 4883, 4886, 4897, 4899, 4902, 4911, 4914, 4917, 4920, 4929,
   4931, 4936, 4945, 4949, 4959, 4982, 5119, 5120, 5155, 5169, 5171, 5183, 5187, 5254, 5375,
   5443, 5631, 5874, 6309, 8448, 8466, 8468, 8471, 8479, 8482, 8484, 8487, 8495, 8499, 8500,
   8504, 8513, 8515, 8517, 8527, 8550, 8704, 8722, 8724, 8728, 8735, 8738, 8740, 8742, 8745,
   8751, 8754, 8756, 8759, 8762, 8769, 8772, 8776, 8785, 8790, 8799, 8803, 8822, 8959, 8977,
   8979, 8980, 8985, 8993, 8995, 8997, 9001, 9009, 9011, 9013, 9015, 9025, 9028, 9034, 9041,
   9044, 9055, 9060, 9215, 9216, 9237, 9249, 9252, 9255, 9265, 9268, 9270, 9281, 9283, 9285,
   9295, 9300, 9313, 9316, 9471, 9509, 9521, 9524, 9537, 9541, 9551, 9554, 9727, 9829, 10229,
   10737, 11506, 12544, 12562, 12564, 12568, 12577, 12579, 12580, 12583, 12593, 12594, 12596,
   12598, 12609, 12611, 12800, 12818, 12820, 12824, 12833, 12835, 12837, 12841, 12849, 12852,
   12855, 12863, 12867, 12870, 12879, 12884, 12895, 12900, 13055, 13073, 13075, 13077, 13089,
   13091, 13092, 13094, 13097, 13105, 13107, 13110, 13114, 13121, 13123, 13126, 13130, 13137,
   13139, 13144, 13153, 13155, 13167, 13174, 13329, 13333, 13345, 13348, 13350, 13361, 13364,
   13366, 13377, 13380, 13382, 13393, 13395, 13397, 13409, 13411, 13560, 13568, 13605, 13617,
   13619, 13621, 13633, 13635, 13637, 13647, 13651, 13653, 13663, 13668, 13718, 13823, 13924,
   14079, 14324, 14807, 15350, 15864, 16640, 16658, 16661, 16673, 16676, 16689, 16691, 16693,
   16703, 16706, 16896, 16914, 16916, 16929, 16930, 16932, 16934, 16945, 16948, 16950, 16961,
   16963, 16966, 16977, 16980, 17151, 17169, 17171, 17173, 17185, 17187, 17190, 17201, 17203,
   17205, 17208, 17217, 17220, 17222, 17233, 17237, 17247, 17251, 17269, 17407, 17426, 17428,
   17441, 17443, 17445, 17457, 17458, 17461, 17473, 17475, 17477, 17480, 17489, 17491, 17493,
   17503, 17507, 17664, 17703, 17713, 17715, 17717, 17729, 17731, 17733, 17745, 17747, 17762,
   17764, 17919, 18021, 18431, 18687, 18932, 19451, 20216, 20479, 20755, 20769, 20788, 20992,
   21009, 21011, 21025, 21028, 21041, 21043, 21045, 21057, 21059, 21265, 21267, 21281, 21283,
   21285, 21297, 21300, 21303, 21313, 21317, 21327, 21331, 21334, 21343, 21348, 21521, 21537,
   21539, 21542, 21553, 21555, 21557, 21567, 21571, 21573, 21583, 21587, 21759, 21814, 21823,
   21828, 21841, 21844, 21855, 21859, 22015, 22117, 22388, 23039, 23747, 24315, 24575, 24851,
   24865, 24883, 24999, 25105, 25108, 25121, 25123, 25137, 25139, 25361, 25363, 25377, 25379,
   25393, 25395, 25398, 25407, 25411, 25423, 25428, 25599, 25652, 25663, 25668, 25682, 26197,
   26209, 26213, 26534, 27012, 27894, 28403, 28671, 28947, 29201, 29218, 29225, 29236, 29457,
   29474, 29539, 29695, 29763, 30036, 30575, 30580, 30852, 31988, 32499, 32767, 33314, 33553,
   33603, 33875, 34646, 34943, 34948, 35574, 36608, 36863, 37137, 37667, 37971, 38772, 39308,
   39318, 40696, 40959, 41795, 42067, 42868, 43679, 43686, 43990, 45055, 45875, 46148, 46948,
   48023, 48053, 48885, 49151, 49697, 50483, 51043, 52399, 52422, 53247, 54340, 54850, 56783,
   56789, 57343, 58419, 59012, 61158, 61439, 62258, 62803, 63732, 64255, 65280, 65521, 65523,
   65527, 65535, 65538, 69905, 69921, 69937, 70161, 70177, 70193, 70209, 70417, 70433, 70449,
   70673, 70689, 70705, 70721, 70946, 74001, 74017, 74033, 74257, 74273, 74289, 74513, 74529,
   74545, 74769, 74770, 74786, 75025, 75042, 75137, 75826, 78097, 78113, 78114, 78130, 78354,
   78370, 78386, 78610, 78626, 78642, 78865, 78897, 78913, 78977, 79138, 79377, 79442, 82193,
   82209, 82706, 82722, 82738, 82769, 82993, 83009, 83041, 83234, 83281, 83729, 86289, 86546,
   86802, 86818, 86833, 87330, 87377, 87825, 90385, 90642, 90898, 91665, 91745, 94481, 94738,
   95313, 96017, 98577, 98833, 99601, 100385, 102673, 103217, 106769, 107281, 128290, 131072,
   131073, 131076, 131079, 131086, 135424, 135442, 135444, 135448, 135455, 135460, 135463,
   135474, 135476, 135479, 135490, 135698, 135699, 135711, 135714, 135718, 135727, 135731,
   135743, 135748, 135954, 135971, 135986, 137284, 139538, 139539, 139551, 139555, 139567,
   139570, 139794, 139795, 139807, 139811, 139823, 139826, 139839, 140050, 140066, 140079,
   140082, 140095, 141429, 142763, 143634, 143637, 143650, 143890, 143906, 143919, 143923,
   143935, 144146, 144162, 144175, 144191, 145407, 145494, 146837, 147712, 149624, 151089,
   151551, 153990, 155135, 155647, 157816, 159226, 159743, 162148, 163394, 163839, 166023,
   167679, 167935, 170051, 171793, 172031, 173925, 175863, 176127, 178120, 179961, 180223,
   181861, 183637, 184319, 185906, 187861, 188415, 190535, 192227, 192511, 193861, 195832,
   196591, 196602, 196606, 196609, 196610, 200978, 201249, 201266, 201522, 205074, 205105,
   205330, 210002, 262159, 266799, 278373, 278527, 282453, 282623, 286464, 286719, 290661,
   291072, 294724, 295168, 298746, 299007, 302916, 303103, 306855, 307199, 310940, 311295,
   314964, 315391, 319029, 319487, 323142, 323583, 327411, 327679, 393231, 434175, 458751,
   528640, 585727, 16777215]

/-- `ia_core_coder_ari_hash_m_1`, ia_core_coder_rom.c 721 ff.: the model of such a context -/
def hashM1 : List Nat := [
   4, 10, 16, 22, 31, 46, 0, 3, 6, 54, 35, 41, 46, 27, 53, 33, 18, 48, 29, 53, 56, 27, 51, 53,
   41, 53, 36, 51, 15, 2, 45, 54, 35, 18, 63, 45, 54, 56, 41, 43, 45, 54, 56, 41, 29, 54, 56,
   18, 53, 41, 53, 55, 42, 30, 59, 45, 60, 35, 46, 30, 33, 36, 30, 54, 56, 53, 55, 18, 55, 41,
   36, 33, 54, 33, 37, 33, 56, 41, 35, 18, 12, 41, 49, 44, 8, 19, 46, 42, 8, 16, 46, 30, 54,
   36, 45, 30, 54, 31, 55, 4, 42, 32, 41, 46, 45, 8, 35, 41, 43, 30, 8, 36, 41, 30, 54, 35, 52,
   33, 18, 54, 55, 41, 45, 60, 32, 22, 45, 60, 9, 41, 45, 8, 9, 36, 60, 33, 19, 60, 33, 31, 33,
   41, 36, 59, 8, 9, 38, 8, 9, 16, 54, 33, 35, 31, 35, 10, 35, 41, 16, 33, 59, 33, 16, 37, 33,
   18, 19, 41, 1, 36, 48, 42, 32, 22, 44, 30, 8, 16, 42, 30, 8, 35, 30, 60, 7, 45, 32, 22, 45,
   60, 9, 22, 45, 32, 16, 43, 8, 35, 37, 33, 31, 33, 41, 7, 8, 13, 30, 8, 32, 16, 41, 30, 8,
   59, 41, 60, 32, 59, 41, 10, 32, 36, 10, 33, 18, 35, 57, 59, 8, 9, 16, 8, 9, 16, 8, 13, 16,
   10, 9, 59, 10, 9, 36, 41, 16, 32, 13, 16, 32, 13, 16, 40, 13, 16, 31, 16, 38, 18, 38, 18,
   38, 18, 18, 31, 4, 7, 13, 42, 32, 30, 8, 9, 43, 8, 7, 60, 9, 7, 60, 9, 16, 60, 9, 59, 60,
   32, 59, 8, 9, 41, 7, 32, 59, 60, 32, 16, 60, 32, 59, 19, 8, 9, 16, 8, 59, 37, 9, 59, 41, 57,
   59, 57, 9, 59, 8, 32, 59, 10, 9, 59, 19, 10, 9, 16, 37, 13, 38, 19, 32, 13, 16, 32, 13, 16,
   32, 13, 9, 16, 18, 19, 34, 37, 61, 37, 37, 24, 57, 7, 9, 7, 7, 32, 7, 9, 60, 32, 59, 8, 32,
   57, 9, 57, 9, 59, 8, 13, 19, 8, 59, 43, 9, 16, 37, 59, 57, 57, 9, 19, 57, 9, 16, 43, 9, 16,
   40, 13, 18, 19, 43, 16, 10, 59, 37, 59, 18, 19, 19, 40, 61, 40, 24, 57, 7, 32, 36, 7, 11, 7,
   32, 57, 32, 57, 12, 57, 9, 57, 9, 38, 43, 9, 43, 59, 18, 59, 43, 59, 9, 19, 10, 38, 22, 61,
   18, 38, 24, 12, 7, 57, 28, 11, 57, 57, 11, 18, 11, 38, 40, 16, 61, 22, 38, 24, 57, 57, 11,
   11, 28, 37, 38, 28, 24, 24, 7, 11, 11, 61, 37, 22, 37, 24, 11, 11, 61, 43, 22, 31, 24, 11,
   38, 61, 31, 61, 18, 24, 57, 14, 61, 46, 22, 24, 14, 14, 46, 22, 24, 14, 28, 28, 24, 14, 25,
   28, 46, 46, 12, 61, 34, 24, 50, 62, 3, 26, 26, 48, 48, 29, 2, 2, 2, 8, 54, 54, 53, 59, 3,
   26, 48, 48, 48, 2, 4, 4, 4, 57, 32, 32, 9, 59, 10, 18, 26, 48, 44, 42, 42, 45, 45, 7, 52,
   52, 57, 52, 52, 52, 11, 11, 36, 2, 4, 57, 57, 10, 52, 7, 52, 52, 14, 52, 14, 2, 57, 57, 57,
   7, 14, 52, 14, 7, 57, 57, 57, 52, 7, 57, 7, 12, 7, 7, 12, 12, 7, 57, 7, 57, 14, 1, 39, 39,
   39, 47, 0, 0, 17, 39, 47, 17, 21, 0, 17, 21, 0, 0, 1, 47, 0, 21, 47, 17, 47, 17, 17, 17, 17,
   21, 0, 17, 47, 17, 47, 17, 1, 17, 47, 17, 47, 17, 47, 17, 17, 47, 17, 47, 21, 23, 17, 39,
   17, 17, 17, 47, 17, 47, 17, 17, 47, 47, 23, 21, 23, 39, 39, 23, 47, 39, 47, 47, 39, 23, 47,
   39, 23, 47, 39, 47, 47, 39, 47, 47, 39, 23, 47, 39, 23, 47, 39, 23, 47, 39, 39, 43, 23, 39,
   47, 39, 23, 43, 47, 47, 39, 1, 0, 21, 0, 17, 0, 39, 0, 21, 23, 23, 21, 23, 39, 23, 23, 23,
   23, 39, 39, 39, 21, 47, 39, 47, 39, 47, 21, 47, 39, 47, 39, 23, 39, 23, 39, 47, 39, 23, 23,
   23, 21, 0]

/-- `ia_core_coder_ari_lookup_m`, ia_core_coder_rom.c 518 ff.: the model of the contexts between two of them -/
def lookupM : List Nat := [
   1, 52, 13, 19, 18, 37, 0, 58, 5, 0, 33, 19, 31, 26, 29, 54, 36, 43, 27, 51, 55, 41, 29, 51,
   55, 51, 55, 51, 55, 51, 44, 0, 33, 19, 37, 42, 0, 33, 36, 18, 44, 30, 55, 36, 31, 53, 55,
   36, 53, 55, 53, 55, 56, 45, 33, 41, 30, 33, 19, 45, 54, 56, 41, 54, 55, 36, 54, 56, 55, 56,
   0, 32, 35, 32, 35, 54, 56, 36, 59, 36, 38, 41, 31, 48, 45, 13, 18, 63, 45, 33, 28, 42, 0,
   33, 18, 30, 54, 56, 54, 55, 63, 30, 13, 31, 42, 30, 33, 36, 18, 42, 60, 33, 36, 31, 60, 33,
   41, 54, 56, 54, 55, 56, 33, 30, 0, 59, 37, 30, 32, 16, 31, 60, 32, 35, 41, 8, 35, 18, 8, 35,
   33, 56, 0, 32, 19, 32, 59, 28, 32, 59, 41, 32, 35, 36, 33, 36, 33, 36, 59, 19, 35, 38, 35,
   19, 33, 36, 38, 41, 18, 34, 43, 2, 30, 13, 31, 45, 0, 13, 18, 0, 60, 33, 41, 60, 33, 42, 60,
   59, 34, 30, 32, 16, 31, 60, 13, 41, 60, 33, 36, 8, 35, 32, 56, 57, 60, 32, 19, 60, 0, 13,
   19, 31, 60, 9, 38, 31, 8, 9, 38, 18, 8, 35, 41, 32, 35, 33, 36, 32, 19, 32, 59, 22, 32, 59,
   41, 32, 59, 41, 32, 59, 19, 33, 36, 41, 11, 19, 9, 59, 19, 9, 59, 19, 33, 59, 19, 13, 38,
   41, 38, 41, 61, 18, 34, 40, 46, 4, 8, 19, 60, 59, 60, 32, 16, 60, 33, 7, 8, 16, 0, 8, 13,
   41, 8, 13, 41, 8, 9, 19, 32, 35, 57, 8, 9, 19, 8, 9, 22, 8, 9, 16, 18, 32, 59, 61, 9, 38,
   32, 59, 36, 57, 9, 38, 32, 13, 19, 0, 9, 19, 32, 13, 38, 18, 32, 59, 19, 33, 38, 11, 18, 9,
   59, 22, 9, 59, 61, 9, 38, 13, 19, 38, 61, 28, 18, 31, 40, 46, 7, 11, 8, 9, 0, 57, 11, 8, 38,
   8, 9, 19, 32, 11, 57, 16, 57, 13, 19, 32, 16, 18, 9, 19, 32, 59, 19, 9, 38, 11, 9, 59, 28,
   9, 59, 19, 32, 59, 19, 9, 38, 11, 22, 13, 19, 9, 19, 9, 19, 38, 61, 28, 31, 40, 46, 7, 16,
   57, 11, 57, 57, 19, 57, 11, 57, 11, 57, 38, 57, 16, 32, 59, 22, 32, 16, 9, 38, 11, 19, 9,
   19, 38, 28, 11, 61, 28, 31, 40, 43, 7, 12, 57, 11, 57, 11, 12, 11, 38, 11, 38, 61, 13, 28,
   20, 40, 43, 57, 11, 12, 14, 61, 28, 13, 18, 34, 43, 7, 12, 14, 61, 28, 16, 31, 43, 12, 14,
   25, 20, 16, 31, 40, 12, 14, 25, 20, 38, 34, 43, 12, 14, 25, 20, 38, 40, 14, 25, 20, 38, 40,
   14, 25, 20, 40, 14, 25, 20, 34, 40, 43, 14, 20, 43, 49, 0, 58, 58, 5, 5, 27, 29, 51, 6, 53,
   53, 32, 33, 55, 33, 36, 5, 27, 44, 44, 44, 6, 52, 30, 52, 0, 8, 54, 9, 33, 38, 28, 44, 0, 2,
   2, 2, 63, 4, 4, 4, 52, 57, 32, 10, 12, 57, 11, 15, 7, 7, 7, 7, 52, 57, 57, 10, 12, 57, 12,
   15, 7, 7, 7, 0, 57, 57, 12, 15, 7, 7, 57, 12, 15, 7, 57, 12, 15, 57, 57, 12, 15, 57, 12, 57,
   12, 15, 0, 17, 39, 23, 47, 39, 0, 39, 23, 0, 17, 23, 0, 17, 23, 17, 0, 39, 21, 17, 23, 1,
   21, 17, 21, 17, 21, 21, 23, 0, 39, 1, 39, 39, 21, 0, 39, 17, 39, 21, 21, 21, 39, 21, 21, 21,
   21, 23, 47, 17, 23, 39, 39, 39, 17, 39, 21, 39, 39, 21, 21, 39, 23, 47, 39, 23, 47, 39, 23,
   47, 39, 23, 47, 39, 23, 47, 39, 23, 47, 39, 23, 47, 39, 23, 47, 39, 23, 47, 39, 23, 47, 39,
   23, 47, 39, 23, 47, 39, 23, 47, 23, 47, 43, 0, 39, 0, 0, 17, 21, 0, 17, 17, 39, 39, 21, 23,
   21, 23, 21, 23, 39, 23, 39, 23, 39, 23, 39, 23, 39, 23, 39, 23, 39, 23, 39, 23, 39, 23, 39,
   23, 39, 21, 39, 39, 21, 39]

/-- `ia_core_coder_ari_cf_m`, ia_core_coder_rom.c 847 ff.: cumulative frequencies of the most significant bits -/
def cfM : List (List Nat) := [
  [
    708, 706, 579, 569, 568, 567, 479, 469, 297, 138, 97, 91, 72, 52, 38, 34, 0],
  [
    7619, 6917, 6519, 6412, 5514, 5003, 4683, 4563, 3907, 3297, 3125, 3060, 2904, 2718, 2631,
    2590, 0],
  [
    7263, 4888, 4810, 4803, 1889, 415, 335, 327, 195, 72, 52, 49, 36, 20, 15, 14, 0],
  [
    3626, 2197, 2188, 2187, 582, 57, 47, 46, 30, 12, 9, 8, 6, 4, 3, 2, 0],
  [
    7806, 5541, 5451, 5441, 2720, 834, 691, 674, 487, 243, 179, 167, 139, 98, 77, 70, 0],
  [
    6684, 4101, 4058, 4055, 1748, 426, 368, 364, 322, 257, 235, 232, 228, 222, 217, 215, 0],
  [
    9162, 5964, 5831, 5819, 3269, 866, 658, 638, 535, 348, 258, 244, 234, 214, 195, 186, 0],
  [
    10638, 8491, 8365, 8351, 4418, 2067, 1859, 1834, 1190, 601, 495, 478, 356, 217, 174, 164, 0],
  [
    13389, 10514, 10032, 9961, 7166, 3488, 2655, 2524, 2015, 1140, 760, 672, 585, 426, 325,
    283, 0],
  [
    14861, 12788, 12115, 11952, 9987, 6657, 5323, 4984, 4324, 3001, 2205, 1943, 1764, 1394,
    1115, 978, 0],
  [
    12876, 10004, 9661, 9610, 7107, 3435, 2711, 2595, 2257, 1508, 1059, 952, 893, 753, 609,
    538, 0],
  [
    15125, 13591, 13049, 12874, 11192, 8543, 7406, 7023, 6291, 4922, 4104, 3769, 3465, 2890,
    2486, 2275, 0],
  [
    14574, 13106, 12731, 12638, 10453, 7947, 7233, 7037, 6031, 4618, 4081, 3906, 3465, 2802,
    2476, 2349, 0],
  [
    15070, 13179, 12517, 12351, 10742, 7657, 6200, 5825, 5264, 3998, 3014, 2662, 2510, 2153,
    1799, 1564, 0],
  [
    15542, 14466, 14007, 13844, 12489, 10409, 9481, 9132, 8305, 6940, 6193, 5867, 5458, 4743,
    4291, 4047, 0],
  [
    15165, 14384, 14084, 13934, 12911, 11485, 10844, 10513, 10002, 8993, 8380, 8051, 7711,
    7036, 6514, 6233, 0],
  [
    15642, 14279, 13625, 13393, 12348, 9971, 8405, 7858, 7335, 6119, 4918, 4376, 4185, 3719,
    3231, 2860, 0],
  [
    13408, 13407, 11471, 11218, 11217, 11216, 9473, 9216, 6480, 3689, 2857, 2690, 2256, 1732,
    1405, 1302, 0],
  [
    16098, 15584, 15191, 14931, 14514, 13578, 12703, 12103, 11830, 11172, 10475, 9867, 9695,
    9281, 8825, 8389, 0],
  [
    15844, 14873, 14277, 13996, 13230, 11535, 10205, 9543, 9107, 8086, 7085, 6419, 6214, 5713,
    5195, 4731, 0],
  [
    16131, 15720, 15443, 15276, 14848, 13971, 13314, 12910, 12591, 11874, 11225, 10788, 10573,
    10077, 9585, 9209, 0],
  [
    16331, 16330, 12283, 11435, 11434, 11433, 8725, 8049, 6065, 4138, 3187, 2842, 2529, 2171,
    1907, 1745, 0],
  [
    16011, 15292, 14782, 14528, 14008, 12767, 11556, 10921, 10591, 9759, 8813, 8043, 7855,
    7383, 6863, 6282, 0],
  [
    16380, 16379, 15159, 14610, 14609, 14608, 12859, 12111, 11046, 9536, 8348, 7713, 7216,
    6533, 5964, 5546, 0],
  [
    16367, 16333, 16294, 16253, 16222, 16143, 16048, 15947, 15915, 15832, 15731, 15619, 15589,
    15512, 15416, 15310, 0],
  [
    15967, 15319, 14937, 14753, 14010, 12638, 11787, 11360, 10805, 9706, 8934, 8515, 8166,
    7456, 6911, 6575, 0],
  [
    4906, 3005, 2985, 2984, 875, 102, 83, 81, 47, 17, 12, 11, 8, 5, 4, 3, 0],
  [
    7217, 4346, 4269, 4264, 1924, 428, 340, 332, 280, 203, 179, 175, 171, 164, 159, 157, 0],
  [
    16010, 15415, 15032, 14805, 14228, 13043, 12168, 11634, 11265, 10419, 9645, 9110, 8892,
    8378, 7850, 7437, 0],
  [
    8573, 5218, 5046, 5032, 2787, 771, 555, 533, 443, 286, 218, 205, 197, 181, 168, 162, 0],
  [
    11474, 8095, 7822, 7796, 4632, 1443, 1046, 1004, 748, 351, 218, 194, 167, 121, 93, 83, 0],
  [
    16152, 15764, 15463, 15264, 14925, 14189, 13536, 13070, 12846, 12314, 11763, 11277, 11131,
    10777, 10383, 10011, 0],
  [
    14187, 11654, 11043, 10919, 8498, 4885, 3778, 3552, 2947, 1835, 1283, 1134, 998, 749, 585,
    514, 0],
  [
    14162, 11527, 10759, 10557, 8601, 5417, 4105, 3753, 3286, 2353, 1708, 1473, 1370, 1148,
    959, 840, 0],
  [
    16205, 15902, 15669, 15498, 15213, 14601, 14068, 13674, 13463, 12970, 12471, 12061, 11916,
    11564, 11183, 10841, 0],
  [
    15043, 12972, 12092, 11792, 10265, 7446, 5934, 5379, 4883, 3825, 3036, 2647, 2507, 2185,
    1901, 1699, 0],
  [
    15320, 13694, 12782, 12352, 11191, 8936, 7433, 6671, 6255, 5366, 4622, 4158, 4020, 3712,
    3420, 3198, 0],
  [
    16255, 16020, 15768, 15600, 15416, 14963, 14440, 14006, 13875, 13534, 13137, 12697, 12602,
    12364, 12084, 11781, 0],
  [
    15627, 14503, 13906, 13622, 12557, 10527, 9269, 8661, 8117, 6933, 5994, 5474, 5222, 4664,
    4166, 3841, 0],
  [
    16366, 16365, 14547, 14160, 14159, 14158, 11969, 11473, 8735, 6147, 4911, 4530, 3865, 3180,
    2710, 2473, 0],
  [
    16257, 16038, 15871, 15754, 15536, 15071, 14673, 14390, 14230, 13842, 13452, 13136, 13021,
    12745, 12434, 12154, 0],
  [
    15855, 14971, 14338, 13939, 13239, 11782, 10585, 9805, 9444, 8623, 7846, 7254, 7079, 6673,
    6262, 5923, 0],
  [
    9492, 6318, 6197, 6189, 3004, 652, 489, 477, 333, 143, 96, 90, 78, 60, 50, 47, 0],
  [
    16313, 16191, 16063, 15968, 15851, 15590, 15303, 15082, 14968, 14704, 14427, 14177, 14095,
    13899, 13674, 13457, 0],
  [
    8485, 5473, 5389, 5383, 2411, 494, 386, 377, 278, 150, 117, 112, 103, 89, 81, 78, 0],
  [
    10497, 7154, 6959, 6943, 3788, 1004, 734, 709, 517, 238, 152, 138, 120, 90, 72, 66, 0],
  [
    16317, 16226, 16127, 16040, 15955, 15762, 15547, 15345, 15277, 15111, 14922, 14723, 14671,
    14546, 14396, 14239, 0],
  [
    16382, 16381, 15858, 15540, 15539, 15538, 14704, 14168, 13768, 13092, 12452, 11925, 11683,
    11268, 10841, 10460, 0],
  [
    5974, 3798, 3758, 3755, 1275, 205, 166, 162, 95, 35, 26, 24, 18, 11, 8, 7, 0],
  [
    3532, 2258, 2246, 2244, 731, 135, 118, 115, 87, 45, 36, 34, 29, 21, 17, 16, 0],
  [
    7466, 4882, 4821, 4811, 2476, 886, 788, 771, 688, 531, 469, 457, 437, 400, 369, 361, 0],
  [
    9580, 5772, 5291, 5216, 3444, 1496, 1025, 928, 806, 578, 433, 384, 366, 331, 296, 273, 0],
  [
    10692, 7730, 7543, 7521, 4679, 1746, 1391, 1346, 1128, 692, 495, 458, 424, 353, 291, 268, 0],
  [
    11040, 7132, 6549, 6452, 4377, 1875, 1253, 1130, 958, 631, 431, 370, 346, 296, 253, 227, 0],
  [
    12687, 9332, 8701, 8585, 6266, 3093, 2182, 2004, 1683, 1072, 712, 608, 559, 458, 373, 323, 0],
  [
    13429, 9853, 8860, 8584, 6806, 4039, 2862, 2478, 2239, 1764, 1409, 1224, 1178, 1077, 979,
    903, 0],
  [
    14685, 12163, 11061, 10668, 9101, 6345, 4871, 4263, 3908, 3200, 2668, 2368, 2285, 2106,
    1942, 1819, 0],
  [
    13295, 11302, 10999, 10945, 7947, 5036, 4490, 4385, 3391, 2185, 1836, 1757, 1424, 998, 833,
    785, 0],
  [
    4992, 2993, 2972, 2970, 1269, 575, 552, 549, 530, 505, 497, 495, 493, 489, 486, 485, 0],
  [
    15419, 13862, 13104, 12819, 11429, 8753, 7220, 6651, 6020, 4667, 3663, 3220, 2995, 2511,
    2107, 1871, 0],
  [
    12468, 9263, 8912, 8873, 5758, 2193, 1625, 1556, 1187, 589, 371, 330, 283, 200, 149, 131, 0],
  [
    15870, 15076, 14615, 14369, 13586, 12034, 10990, 10423, 9953, 8908, 8031, 7488, 7233, 6648,
    6101, 5712, 0],
  [
    1693, 978, 976, 975, 194, 18, 16, 15, 11, 7, 6, 5, 4, 3, 2, 1, 0],
  [
    7992, 5218, 5147, 5143, 2152, 366, 282, 276, 173, 59, 38, 35, 27, 16, 11, 10, 0]]

end Verif.Arith
