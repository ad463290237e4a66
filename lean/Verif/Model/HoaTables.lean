/-!
# Huffman tables of the elements of HOA vectors

Each entry is symbol, length and code word.  Row `n - 6` holds the five tables for a quantiser of `n` bits; the entries behind the first `n` of the
15 of each table are zero in the source and are not looked at.
-/

namespace Verif.Hoa

/-- `ia_hoa_frame_huffman_table`, impeghd_hoa_rom.c 395-831. -/
def huffTables : List (List (List (Nat × Nat × Nat))) := [
  [[(1, 3, 0), (0, 4, 2), (5, 4, 3), (3, 2, 1), (2, 2, 2), (4, 2, 3)],
   [(0, 3, 0), (4, 4, 2), (5, 4, 3), (2, 2, 1), (3, 2, 2), (1, 2, 3)],
   [(2, 3, 0), (3, 4, 2), (4, 5, 6), (5, 5, 7), (1, 2, 1), (0, 1, 1)],
   [(0, 1, 0), (2, 3, 4), (3, 4, 10), (4, 5, 22), (5, 5, 23), (1, 2, 3)],
   [(3, 3, 0), (4, 4, 2), (5, 4, 3), (0, 2, 1), (1, 2, 2), (2, 2, 3)]],
  [[(5, 3, 0), (2, 3, 1), (4, 2, 1), (3, 2, 2), (1, 3, 6), (0, 4, 14), (6, 4, 15)],
   [(2, 3, 0), (1, 3, 1), (3, 2, 1), (4, 2, 2), (5, 3, 6), (0, 4, 14), (6, 4, 15)],
   [(3, 3, 0), (4, 4, 2), (5, 5, 6), (6, 5, 7), (0, 2, 1), (1, 2, 2), (2, 2, 3)],
   [(0, 1, 0), (3, 4, 8), (4, 5, 18), (5, 6, 38), (6, 6, 39), (2, 3, 5), (1, 2, 3)],
   [(4, 3, 0), (0, 3, 1), (5, 4, 4), (6, 4, 5), (1, 3, 3), (3, 2, 2), (2, 2, 3)]],
  [[(6, 3, 0), (3, 3, 1), (5, 2, 1), (7, 5, 16), (0, 5, 17), (1, 4, 9), (2, 3, 5), (4, 2, 3)],
   [(3, 3, 0), (1, 4, 2), (0, 5, 6), (7, 5, 7), (4, 2, 1), (2, 3, 4), (6, 3, 5), (5, 2, 3)],
   [(1, 3, 0), (0, 3, 1), (4, 3, 2), (5, 4, 6), (6, 5, 14), (7, 5, 15), (2, 2, 2), (3, 2, 3)],
   [(1, 3, 0), (4, 4, 2), (5, 5, 6), (6, 6, 14), (7, 6, 15), (2, 3, 2), (3, 3, 3), (0, 1, 1)],
   [(5, 3, 0), (3, 3, 1), (0, 4, 4), (7, 4, 5), (2, 3, 3), (6, 3, 4), (1, 3, 5), (4, 2, 3)]],
  [[(7, 3, 0), (4, 3, 1), (6, 2, 1), (1, 6, 32), (0, 6, 33), (8, 5, 17), (2, 4, 9), (3, 3, 5), (5, 2, 3)],
   [(4, 3, 0), (2, 4, 2), (1, 5, 6), (0, 6, 14), (8, 6, 15), (5, 2, 1), (3, 3, 4), (7, 3, 5), (6, 2, 3)],
   [(3, 3, 0), (2, 3, 1), (5, 3, 2), (1, 3, 3), (6, 4, 8), (7, 5, 18), (8, 5, 19), (0, 3, 5), (4, 2, 3)],
   [(0, 2, 0), (1, 3, 2), (2, 3, 3), (3, 3, 4), (4, 3, 5), (5, 3, 6), (6, 4, 14), (7, 5, 30), (8, 5, 31)],
   [(5, 3, 0), (6, 3, 1), (4, 3, 2), (3, 3, 3), (7, 3, 4), (2, 3, 5), (0, 4, 12), (8, 4, 13), (1, 3, 7)]],
  [[(8, 3, 0), (2, 6, 8), (1, 7, 18), (0, 7, 19), (9, 5, 5), (3, 4, 3), (7, 2, 1), (5, 3, 4), (4, 3, 5), (6, 2, 3)],
   [(5, 3, 0), (0, 7, 16), (9, 7, 17), (1, 6, 9), (2, 5, 5), (3, 4, 3), (6, 2, 1), (4, 3, 4), (8, 3, 5), (7, 2, 3)],
   [(7, 4, 0), (1, 4, 1), (4, 3, 1), (6, 3, 2), (3, 3, 3), (2, 3, 4), (0, 4, 10), (8, 5, 22), (9, 5, 23), (5, 2, 3)],
   [(6, 4, 0), (7, 5, 2), (8, 6, 6), (9, 6, 7), (2, 3, 1), (0, 2, 1), (3, 3, 4), (1, 3, 5), (4, 3, 6), (5, 3, 7)],
   [(6, 3, 0), (7, 3, 1), (5, 3, 2), (4, 3, 3), (2, 4, 8), (1, 4, 9), (8, 3, 5), (3, 3, 6), (9, 4, 14), (0, 4, 15)]],
  [[(9, 3, 0), (5, 4, 2), (3, 5, 6), (2, 6, 14), (1, 7, 30), (0, 7, 31), (8, 2, 1), (6, 3, 4), (4, 4, 10), (10, 4, 11), (7, 2, 3)],
   [(6, 3, 0), (10, 8, 32), (0, 8, 33), (1, 7, 17), (2, 6, 9), (3, 5, 5), (4, 4, 3), (7, 2, 1), (5, 3, 4), (9, 3, 5), (8, 2, 3)],
   [(5, 3, 0), (8, 4, 2), (2, 4, 3), (7, 3, 2), (4, 3, 3), (9, 5, 16), (0, 6, 34), (10, 6, 35), (1, 4, 9), (3, 3, 5), (6, 2, 3)],
   [(6, 4, 0), (7, 4, 1), (1, 4, 2), (8, 5, 6), (9, 6, 14), (10, 6, 15), (3, 3, 2), (4, 3, 3), (0, 2, 2), (5, 3, 6), (2, 3, 7)],
   [(7, 3, 0), (8, 3, 1), (6, 3, 2), (5, 3, 3), (9, 3, 4), (3, 4, 10), (2, 4, 11), (4, 3, 6), (1, 5, 28), (0, 5, 29), (10, 4, 15)]],
  [[(10, 3, 0), (6, 4, 2), (4, 5, 6), (3, 6, 14), (2, 7, 30), (1, 8, 62), (0, 8, 63), (9, 2, 1), (7, 3, 4), (5, 4, 10), (11, 4, 11), (8, 2, 3)],
   [(7, 3, 0), (11, 8, 32), (1, 9, 66), (0, 9, 67), (2, 7, 17), (3, 6, 9), (4, 5, 5), (5, 4, 3), (8, 2, 1), (6, 3, 4), (10, 3, 5), (9, 2, 3)],
   [(9, 4, 0), (1, 6, 4), (0, 7, 10), (11, 7, 11), (10, 5, 3), (6, 3, 1), (8, 3, 2), (5, 3, 3), (3, 4, 8), (2, 4, 9), (4, 3, 5), (7, 2, 3)],
   [(0, 3, 0), (8, 4, 2), (2, 4, 3), (9, 5, 8), (10, 6, 18), (11, 6, 19), (1, 4, 5), (5, 3, 3), (4, 3, 4), (6, 3, 5), (7, 3, 6), (3, 3, 7)],
   [(8, 3, 0), (9, 3, 1), (7, 3, 2), (6, 3, 3), (4, 4, 8), (2, 5, 18), (1, 6, 38), (0, 6, 39), (10, 3, 5), (5, 3, 6), (3, 4, 14), (11, 4, 15)]],
  [[(11, 3, 0), (7, 4, 2), (5, 5, 6), (4, 6, 14), (3, 7, 30), (2, 8, 62), (1, 9, 126), (0, 9, 127), (10, 2, 1), (8, 3, 4), (6, 4, 10), (12, 4, 11), (9, 2, 3)],
   [(8, 3, 0), (12, 8, 32), (2, 9, 66), (1, 10, 134), (0, 10, 135), (3, 7, 17), (4, 6, 9), (5, 5, 5), (6, 4, 3), (9, 2, 1), (7, 3, 4), (11, 3, 5), (10, 2, 3)],
   [(10, 4, 0), (3, 5, 2), (11, 5, 3), (7, 3, 1), (9, 3, 2), (6, 3, 3), (4, 4, 8), (2, 5, 18), (1, 6, 38), (0, 7, 78), (12, 7, 79), (5, 3, 5), (8, 2, 3)],
   [(4, 4, 0), (9, 4, 1), (0, 3, 1), (3, 4, 4), (1, 5, 10), (11, 6, 22), (12, 6, 23), (6, 3, 3), (5, 3, 4), (7, 3, 5), (8, 3, 6), (2, 4, 14), (10, 4, 15)],
   [(9, 3, 0), (10, 3, 1), (8, 3, 2), (7, 3, 3), (5, 4, 8), (2, 6, 36), (1, 7, 74), (0, 7, 75), (3, 5, 19), (11, 3, 5), (6, 3, 6), (4, 4, 14), (12, 4, 15)]],
  [[(12, 3, 0), (8, 4, 2), (5, 6, 12), (4, 7, 26), (3, 8, 54), (2, 9, 110), (1, 10, 222), (0, 10, 223), (6, 5, 7), (11, 2, 1), (9, 3, 4), (7, 4, 10), (13, 4, 11), (10, 2, 3)],
   [(9, 3, 0), (3, 9, 64), (2, 10, 130), (1, 11, 262), (0, 11, 263), (13, 8, 33), (4, 7, 17), (5, 6, 9), (6, 5, 5), (7, 4, 3), (10, 2, 1), (8, 3, 4), (12, 3, 5), (11, 2, 3)],
   [(11, 4, 0), (4, 5, 2), (12, 5, 3), (8, 3, 1), (10, 3, 2), (7, 3, 3), (5, 4, 8), (2, 6, 36), (1, 7, 74), (13, 8, 150), (0, 8, 151), (3, 5, 19), (6, 3, 5), (9, 2, 3)],
   [(5, 4, 0), (10, 4, 1), (11, 5, 4), (2, 5, 5), (4, 4, 3), (0, 3, 2), (7, 3, 3), (6, 3, 4), (8, 3, 5), (9, 3, 6), (1, 5, 28), (12, 6, 58), (13, 6, 59), (3, 4, 15)],
   [(10, 3, 0), (11, 3, 1), (9, 3, 2), (6, 4, 6), (3, 6, 28), (2, 7, 58), (1, 8, 118), (0, 8, 119), (4, 5, 15), (8, 3, 4), (12, 3, 5), (7, 3, 6), (5, 4, 14), (13, 4, 15)]],
  [[(13, 3, 0), (9, 4, 2), (6, 6, 12), (5, 7, 26), (4, 8, 54), (3, 9, 110), (2, 10, 222), (1, 11, 446), (0, 11, 447), (7, 5, 7), (12, 2, 1), (10, 3, 4), (8, 4, 10), (14, 4, 11), (11, 2, 3)],
   [(10, 3, 0), (6, 7, 16), (5, 7, 17), (4, 8, 36), (3, 9, 74), (2, 10, 150), (1, 11, 302), (0, 11, 303), (14, 7, 19), (7, 5, 5), (8, 4, 3), (11, 2, 1), (9, 3, 4), (13, 3, 5), (12, 2, 3)],
   [(12, 4, 0), (5, 5, 2), (13, 5, 3), (9, 3, 1), (11, 3, 2), (8, 3, 3), (6, 4, 8), (14, 9, 288), (0, 9, 289), (1, 8, 145), (2, 7, 73), (3, 6, 37), (4, 5, 19), (7, 3, 5), (10, 2, 3)],
   [(4, 5, 0), (12, 5, 1), (6, 4, 1), (11, 4, 2), (2, 6, 12), (13, 7, 26), (14, 7, 27), (3, 5, 7), (5, 4, 4), (1, 4, 5), (8, 3, 3), (7, 3, 4), (9, 3, 5), (0, 3, 6), (10, 3, 7)],
   [(11, 3, 0), (12, 3, 1), (10, 3, 2), (7, 4, 6), (4, 6, 28), (3, 7, 58), (2, 8, 118), (1, 9, 238), (0, 9, 239), (5, 5, 15), (9, 3, 4), (13, 3, 5), (8, 3, 6), (6, 4, 14), (14, 4, 15)]]]

end Verif.Hoa
