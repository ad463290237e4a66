/-!
# Variable-length code tables

Copied from the ROM files by script.  `size` and `code` are the length and the value of the codeword.
-/

namespace Verif.Huff

/-- `ia_huff_code_word_struct` (ia_core_coder_info.h 55-60) and `ia_drc_delta_param_table_entry_struct`
(impd_drc_extr_delta_coded_info.h 42-47). -/
structure Code where
  size : Nat
  code : Nat
  val : Int
  deriving DecidableEq, Repr

/-- `ia_core_coder_book_scl_huff_code_word`, ia_core_coder_hufftables_rom.c 69-94; `val` is the index. -/
def sclTable : List Code := [
  ⟨1, 0x0, 60⟩, ⟨3, 0x4, 59⟩, ⟨4, 0xa, 61⟩, ⟨4, 0xb, 58⟩, ⟨4, 0xc, 62⟩, ⟨5, 0x1a, 57⟩,
  ⟨5, 0x1b, 63⟩, ⟨6, 0x38, 56⟩, ⟨6, 0x39, 64⟩, ⟨6, 0x3a, 55⟩, ⟨6, 0x3b, 65⟩, ⟨7, 0x78, 66⟩,
  ⟨7, 0x79, 54⟩, ⟨7, 0x7a, 67⟩, ⟨8, 0xf6, 53⟩, ⟨8, 0xf7, 68⟩, ⟨8, 0xf8, 52⟩, ⟨8, 0xf9, 69⟩,
  ⟨8, 0xfa, 51⟩, ⟨9, 0x1f6, 70⟩, ⟨9, 0x1f7, 50⟩, ⟨9, 0x1f8, 49⟩, ⟨9, 0x1f9, 71⟩, ⟨10, 0x3f4, 72⟩,
  ⟨10, 0x3f5, 48⟩, ⟨10, 0x3f6, 73⟩, ⟨10, 0x3f7, 47⟩, ⟨10, 0x3f8, 74⟩, ⟨10, 0x3f9, 46⟩, ⟨11, 0x7f4, 76⟩,
  ⟨11, 0x7f5, 75⟩, ⟨11, 0x7f6, 77⟩, ⟨11, 0x7f7, 78⟩, ⟨11, 0x7f8, 45⟩, ⟨11, 0x7f9, 43⟩, ⟨12, 0xff4, 44⟩,
  ⟨12, 0xff5, 79⟩, ⟨12, 0xff6, 42⟩, ⟨12, 0xff7, 41⟩, ⟨12, 0xff8, 80⟩, ⟨12, 0xff9, 40⟩, ⟨13, 0x1ff4, 81⟩,
  ⟨13, 0x1ff5, 39⟩, ⟨13, 0x1ff6, 82⟩, ⟨13, 0x1ff7, 38⟩, ⟨13, 0x1ff8, 83⟩, ⟨14, 0x3ff2, 37⟩, ⟨14, 0x3ff3, 35⟩,
  ⟨14, 0x3ff4, 85⟩, ⟨14, 0x3ff5, 33⟩, ⟨14, 0x3ff6, 36⟩, ⟨14, 0x3ff7, 34⟩, ⟨14, 0x3ff8, 84⟩, ⟨14, 0x3ff9, 32⟩,
  ⟨15, 0x7ff4, 87⟩, ⟨15, 0x7ff5, 89⟩, ⟨15, 0x7ff6, 30⟩, ⟨15, 0x7ff7, 31⟩, ⟨16, 0xfff0, 86⟩, ⟨16, 0xfff1, 29⟩,
  ⟨16, 0xfff2, 26⟩, ⟨16, 0xfff3, 27⟩, ⟨16, 0xfff4, 28⟩, ⟨16, 0xfff5, 24⟩, ⟨16, 0xfff6, 88⟩, ⟨17, 0x1ffee, 25⟩,
  ⟨17, 0x1ffef, 22⟩, ⟨17, 0x1fff0, 23⟩, ⟨18, 0x3ffe2, 90⟩, ⟨18, 0x3ffe3, 21⟩, ⟨18, 0x3ffe4, 19⟩, ⟨18, 0x3ffe5, 3⟩,
  ⟨18, 0x3ffe6, 1⟩, ⟨18, 0x3ffe7, 2⟩, ⟨18, 0x3ffe8, 0⟩, ⟨19, 0x7ffd2, 98⟩, ⟨19, 0x7ffd3, 99⟩, ⟨19, 0x7ffd4, 100⟩,
  ⟨19, 0x7ffd5, 101⟩, ⟨19, 0x7ffd6, 102⟩, ⟨19, 0x7ffd7, 117⟩, ⟨19, 0x7ffd8, 97⟩, ⟨19, 0x7ffd9, 91⟩, ⟨19, 0x7ffda, 92⟩,
  ⟨19, 0x7ffdb, 93⟩, ⟨19, 0x7ffdc, 94⟩, ⟨19, 0x7ffdd, 95⟩, ⟨19, 0x7ffde, 96⟩, ⟨19, 0x7ffdf, 104⟩, ⟨19, 0x7ffe0, 111⟩,
  ⟨19, 0x7ffe1, 112⟩, ⟨19, 0x7ffe2, 113⟩, ⟨19, 0x7ffe3, 114⟩, ⟨19, 0x7ffe4, 115⟩, ⟨19, 0x7ffe5, 116⟩, ⟨19, 0x7ffe6, 110⟩,
  ⟨19, 0x7ffe7, 105⟩, ⟨19, 0x7ffe8, 106⟩, ⟨19, 0x7ffe9, 107⟩, ⟨19, 0x7ffea, 108⟩, ⟨19, 0x7ffeb, 109⟩, ⟨19, 0x7ffec, 118⟩,
  ⟨19, 0x7ffed, 6⟩, ⟨19, 0x7ffee, 8⟩, ⟨19, 0x7ffef, 9⟩, ⟨19, 0x7fff0, 10⟩, ⟨19, 0x7fff1, 5⟩, ⟨19, 0x7fff2, 103⟩,
  ⟨19, 0x7fff3, 120⟩, ⟨19, 0x7fff4, 119⟩, ⟨19, 0x7fff5, 4⟩, ⟨19, 0x7fff6, 7⟩, ⟨19, 0x7fff7, 15⟩, ⟨19, 0x7fff8, 16⟩,
  ⟨19, 0x7fff9, 18⟩, ⟨19, 0x7fffa, 20⟩, ⟨19, 0x7fffb, 17⟩, ⟨19, 0x7fffc, 11⟩, ⟨19, 0x7fffd, 12⟩, ⟨19, 0x7fffe, 14⟩,
  ⟨19, 0x7ffff, 13⟩]

/-- `ia_drc_gain_tbls_prof_0_1`, impd_drc_rom.c 56-66; `val` in 1/10000 dB. -/
def gainTable01 : List Code := [
  ⟨2, 0x3, -1250⟩, ⟨2, 0x2, 1250⟩, ⟨3, 0x1, -2500⟩, ⟨3, 0x2, 0⟩, ⟨4, 0x0, -20000⟩, ⟨5, 0x2, -5000⟩,
  ⟨5, 0xf, -3750⟩, ⟨5, 0xe, 10000⟩, ⟨6, 0x19, -6250⟩, ⟨6, 0x18, 2500⟩, ⟨6, 0x6, 3750⟩, ⟨7, 0xf, -10000⟩,
  ⟨7, 0x34, -8750⟩, ⟨7, 0x36, -7500⟩, ⟨7, 0x37, 5000⟩, ⟨8, 0x1d, 6250⟩, ⟨9, 0x39, -18750⟩, ⟨9, 0xd5, -11250⟩,
  ⟨9, 0xd7, 7500⟩, ⟨9, 0xd4, 8750⟩, ⟨10, 0x70, -15000⟩, ⟨10, 0x1ac, -13750⟩, ⟨10, 0x1ad, -12500⟩, ⟨11, 0xe2, -17500⟩,
  ⟨11, 0xe3, -16250⟩]

/-- `ia_drc_gain_tbls_prof_2`, impd_drc_rom.c 68-87; `val` in 1/10000 dB. -/
def gainTable2 : List Code := [
  ⟨3, 0x7, -1250⟩, ⟨4, 0xc, -6250⟩, ⟨4, 0x9, -5000⟩, ⟨4, 0x5, -3750⟩, ⟨4, 0x3, -2500⟩, ⟨4, 0x1, 0⟩,
  ⟨4, 0xb, 1250⟩, ⟨5, 0x11, -8750⟩, ⟨5, 0xe, -7500⟩, ⟨5, 0x5, 2500⟩, ⟨5, 0x4, 3750⟩, ⟨5, 0x8, 5000⟩,
  ⟨5, 0x0, 6250⟩, ⟨5, 0xd, 7500⟩, ⟨5, 0xf, 8750⟩, ⟨5, 0x10, 10000⟩, ⟨5, 0x1b, 11250⟩, ⟨6, 0x2b, -12500⟩,
  ⟨6, 0x28, -11250⟩, ⟨6, 0x2, -10000⟩, ⟨6, 0x12, 12500⟩, ⟨6, 0x18, 13750⟩, ⟨6, 0x29, 15000⟩, ⟨7, 0x6a, -40000⟩,
  ⟨7, 0x54, -17500⟩, ⟨7, 0x68, -16250⟩, ⟨7, 0x26, -15000⟩, ⟨7, 0x6, -13750⟩, ⟨7, 0x32, 16250⟩, ⟨8, 0xd2, -22500⟩,
  ⟨8, 0xab, -21250⟩, ⟨8, 0xaa, -20000⟩, ⟨8, 0x4f, -18750⟩, ⟨8, 0x4e, 17500⟩, ⟨8, 0xd7, 18750⟩, ⟨8, 0xe, 20000⟩,
  ⟨9, 0x1ad, -36250⟩, ⟨9, 0x1ac, -33750⟩, ⟨9, 0x1a6, -32500⟩, ⟨9, 0xcd, -31250⟩, ⟨9, 0xce, -27500⟩, ⟨9, 0x1a7, -26250⟩,
  ⟨9, 0x1f, -25000⟩, ⟨9, 0xcc, -23750⟩, ⟨10, 0x3c, -35000⟩, ⟨10, 0x19e, -30000⟩, ⟨10, 0x19f, -28750⟩, ⟨11, 0x7a, -38750⟩,
  ⟨11, 0x7b, -37500⟩]

/-- `ia_drc_slope_code_tbl_entries_by_size`, impd_drc_rom.c 89-95; `val` in 1/10000. -/
def slopeTable : List Code := [
  ⟨1, 0x1, 0⟩, ⟨2, 0x0, -50⟩, ⟨4, 0x7, 50⟩, ⟨5, 0xa, -1953⟩, ⟨5, 0x9, -781⟩, ⟨5, 0xd, -312⟩,
  ⟨5, 0xb, 312⟩, ⟨6, 0x18, -30518⟩, ⟨6, 0x11, 781⟩, ⟨7, 0x32, -4883⟩, ⟨7, 0x20, 12207⟩, ⟨7, 0x33, 30518⟩,
  ⟨8, 0x42, -12207⟩, ⟨9, 0x87, 1953⟩, ⟨9, 0x86, 4883⟩]

/-- `impeghd_mc_huff_len_tbl_angle`, `impeghd_mc_huff_code_tbl_angle`, impeghd_multichannel_rom.c 65-87; `val` is the index. -/
def mcAngle : List Code := [
  ⟨1, 0x0, 0⟩, ⟨4, 0xb, 1⟩, ⟨5, 0x12, 2⟩, ⟨5, 0x1b, 3⟩, ⟨5, 0x1f, 4⟩, ⟨6, 0x31, 5⟩,
  ⟨6, 0x3a, 6⟩, ⟨7, 0x43, 7⟩, ⟨7, 0x65, 8⟩, ⟨7, 0x73, 9⟩, ⟨8, 0x82, 10⟩, ⟨8, 0x9a, 11⟩,
  ⟨8, 0xce, 12⟩, ⟨8, 0xee, 13⟩, ⟨9, 0x106, 14⟩, ⟨9, 0x13a, 15⟩, ⟨9, 0x1d9, 16⟩, ⟨9, 0x1de, 17⟩,
  ⟨10, 0x202, 18⟩, ⟨10, 0x261, 19⟩, ⟨10, 0x20f, 20⟩, ⟨10, 0x20e, 21⟩, ⟨10, 0x263, 22⟩, ⟨10, 0x266, 23⟩,
  ⟨10, 0x272, 24⟩, ⟨10, 0x271, 25⟩, ⟨10, 0x277, 26⟩, ⟨10, 0x276, 27⟩, ⟨10, 0x334, 28⟩, ⟨10, 0x325, 29⟩,
  ⟨10, 0x326, 30⟩, ⟨10, 0x327, 31⟩, ⟨10, 0x324, 32⟩, ⟨10, 0x323, 33⟩, ⟨10, 0x335, 34⟩, ⟨10, 0x322, 35⟩,
  ⟨10, 0x320, 36⟩, ⟨10, 0x321, 37⟩, ⟨10, 0x273, 38⟩, ⟨10, 0x270, 39⟩, ⟨10, 0x267, 40⟩, ⟨10, 0x260, 41⟩,
  ⟨11, 0x4c4, 42⟩, ⟨11, 0x4c5, 43⟩, ⟨10, 0x203, 44⟩, ⟨9, 0x1df, 45⟩, ⟨9, 0x1da, 46⟩, ⟨9, 0x1d8, 47⟩,
  ⟨9, 0x19b, 48⟩, ⟨9, 0x1db, 49⟩, ⟨9, 0x132, 50⟩, ⟨9, 0x100, 51⟩, ⟨8, 0xcf, 52⟩, ⟨8, 0xcc, 53⟩,
  ⟨8, 0x9b, 54⟩, ⟨8, 0x81, 55⟩, ⟨7, 0x72, 56⟩, ⟨7, 0x4f, 57⟩, ⟨7, 0x42, 58⟩, ⟨6, 0x38, 59⟩,
  ⟨6, 0x30, 60⟩, ⟨5, 0x1e, 61⟩, ⟨5, 0x1a, 62⟩, ⟨5, 0x11, 63⟩, ⟨4, 0xa, 64⟩]

/-- `impeghd_mc_huff_len_tbl_scf`, `impeghd_mc_huff_code_tbl_scf`, impeghd_multichannel_rom.c 89-127; `val` is the index. -/
def mcScf : List Code := [
  ⟨18, 0x3ffe8, 0⟩, ⟨18, 0x3ffe6, 1⟩, ⟨18, 0x3ffe7, 2⟩, ⟨18, 0x3ffe5, 3⟩, ⟨19, 0x7fff5, 4⟩, ⟨19, 0x7fff1, 5⟩,
  ⟨19, 0x7ffed, 6⟩, ⟨19, 0x7fff6, 7⟩, ⟨19, 0x7ffee, 8⟩, ⟨19, 0x7ffef, 9⟩, ⟨19, 0x7fff0, 10⟩, ⟨19, 0x7fffc, 11⟩,
  ⟨19, 0x7fffd, 12⟩, ⟨19, 0x7ffff, 13⟩, ⟨19, 0x7fffe, 14⟩, ⟨19, 0x7fff7, 15⟩, ⟨19, 0x7fff8, 16⟩, ⟨19, 0x7fffb, 17⟩,
  ⟨19, 0x7fff9, 18⟩, ⟨18, 0x3ffe4, 19⟩, ⟨19, 0x7fffa, 20⟩, ⟨18, 0x3ffe3, 21⟩, ⟨17, 0x1ffef, 22⟩, ⟨17, 0x1fff0, 23⟩,
  ⟨16, 0xfff5, 24⟩, ⟨17, 0x1ffee, 25⟩, ⟨16, 0xfff2, 26⟩, ⟨16, 0xfff3, 27⟩, ⟨16, 0xfff4, 28⟩, ⟨16, 0xfff1, 29⟩,
  ⟨15, 0x7ff6, 30⟩, ⟨15, 0x7ff7, 31⟩, ⟨14, 0x3ff9, 32⟩, ⟨14, 0x3ff5, 33⟩, ⟨14, 0x3ff7, 34⟩, ⟨14, 0x3ff3, 35⟩,
  ⟨14, 0x3ff6, 36⟩, ⟨14, 0x3ff2, 37⟩, ⟨13, 0x1ff7, 38⟩, ⟨13, 0x1ff5, 39⟩, ⟨12, 0xff9, 40⟩, ⟨12, 0xff7, 41⟩,
  ⟨12, 0xff6, 42⟩, ⟨11, 0x7f9, 43⟩, ⟨12, 0xff4, 44⟩, ⟨11, 0x7f8, 45⟩, ⟨10, 0x3f9, 46⟩, ⟨10, 0x3f7, 47⟩,
  ⟨10, 0x3f5, 48⟩, ⟨9, 0x1f8, 49⟩, ⟨9, 0x1f7, 50⟩, ⟨8, 0xfa, 51⟩, ⟨8, 0xf8, 52⟩, ⟨8, 0xf6, 53⟩,
  ⟨7, 0x79, 54⟩, ⟨6, 0x3a, 55⟩, ⟨6, 0x38, 56⟩, ⟨5, 0x1a, 57⟩, ⟨4, 0xb, 58⟩, ⟨3, 0x4, 59⟩,
  ⟨1, 0x0, 60⟩, ⟨4, 0xa, 61⟩, ⟨4, 0xc, 62⟩, ⟨5, 0x1b, 63⟩, ⟨6, 0x39, 64⟩, ⟨6, 0x3b, 65⟩,
  ⟨7, 0x78, 66⟩, ⟨7, 0x7a, 67⟩, ⟨8, 0xf7, 68⟩, ⟨8, 0xf9, 69⟩, ⟨9, 0x1f6, 70⟩, ⟨9, 0x1f9, 71⟩,
  ⟨10, 0x3f4, 72⟩, ⟨10, 0x3f6, 73⟩, ⟨10, 0x3f8, 74⟩, ⟨11, 0x7f5, 75⟩, ⟨11, 0x7f4, 76⟩, ⟨11, 0x7f6, 77⟩,
  ⟨11, 0x7f7, 78⟩, ⟨12, 0xff5, 79⟩, ⟨12, 0xff8, 80⟩, ⟨13, 0x1ff4, 81⟩, ⟨13, 0x1ff6, 82⟩, ⟨13, 0x1ff8, 83⟩,
  ⟨14, 0x3ff8, 84⟩, ⟨14, 0x3ff4, 85⟩, ⟨16, 0xfff0, 86⟩, ⟨15, 0x7ff4, 87⟩, ⟨16, 0xfff6, 88⟩, ⟨15, 0x7ff5, 89⟩,
  ⟨18, 0x3ffe2, 90⟩, ⟨19, 0x7ffd9, 91⟩, ⟨19, 0x7ffda, 92⟩, ⟨19, 0x7ffdb, 93⟩, ⟨19, 0x7ffdc, 94⟩, ⟨19, 0x7ffdd, 95⟩,
  ⟨19, 0x7ffde, 96⟩, ⟨19, 0x7ffd8, 97⟩, ⟨19, 0x7ffd2, 98⟩, ⟨19, 0x7ffd3, 99⟩, ⟨19, 0x7ffd4, 100⟩, ⟨19, 0x7ffd5, 101⟩,
  ⟨19, 0x7ffd6, 102⟩, ⟨19, 0x7fff2, 103⟩, ⟨19, 0x7ffdf, 104⟩, ⟨19, 0x7ffe7, 105⟩, ⟨19, 0x7ffe8, 106⟩, ⟨19, 0x7ffe9, 107⟩,
  ⟨19, 0x7ffea, 108⟩, ⟨19, 0x7ffeb, 109⟩, ⟨19, 0x7ffe6, 110⟩, ⟨19, 0x7ffe0, 111⟩, ⟨19, 0x7ffe1, 112⟩, ⟨19, 0x7ffe2, 113⟩,
  ⟨19, 0x7ffe3, 114⟩, ⟨19, 0x7ffe4, 115⟩, ⟨19, 0x7ffe5, 116⟩, ⟨19, 0x7ffd7, 117⟩, ⟨19, 0x7ffec, 118⟩, ⟨19, 0x7fff4, 119⟩,
  ⟨19, 0x7fff3, 120⟩]

end Verif.Huff
