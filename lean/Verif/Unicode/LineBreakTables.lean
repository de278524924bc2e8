/-!
# Model of `rust/unicode/src/tables.rs`: line breaking

Each table is a list of rows, and each row is one number: its bytes are the entries of the
row, the first entry being the most significant byte.  `tableGet` reads an entry.
-/

namespace Xi

namespace Unicode

/-- Entry `i` of a table with `width` entries in a row; `none` if there is no such entry, as
when an index is out of bounds. -/
def tableGet (width : Nat) (rows : List Nat) (i : Nat) : Option Nat :=
  rows[i / width]?.map (fun row => (row >>> (8 * (width - 1 - i % width))) % 256)

/-- `LINEBREAK_1_2`, unicode/src/tables.rs:20-105: 2048 entries in rows of 64. -/
def lb12 : List Nat := [
  0x09_09_09_09_09_09_09_09_09_04_11_06_06_0a_09_09_09_09_09_09_09_09_09_09_09_09_09_09_09_09_09_09_1a_0b_17_02_16_15_02_17_14_24_02_16_10_0d_10_1b_13_13_13_13_13_13_13_13_13_13_10_10_02_02_02_0b,
  0x02_02_02_02_02_02_02_02_02_02_02_02_02_02_02_02_02_02_02_02_02_02_02_02_02_02_02_14_16_24_02_02_02_02_02_02_02_02_02_02_02_02_02_02_02_02_02_02_02_02_02_02_02_02_02_02_02_02_02_14_04_08_02_09,
  0x09_09_09_09_09_1d_09_09_09_09_09_09_09_09_09_09_09_09_09_09_09_09_09_09_09_09_09_09_09_09_09_09_0c_14_15_16_16_16_02_01_01_02_01_17_02_04_02_02_15_16_01_01_05_02_01_01_01_01_01_17_01_01_01_14,
  0x02_02_02_02_02_02_02_02_02_02_02_02_02_02_02_02_02_02_02_02_02_02_02_01_02_02_02_02_02_02_02_02_02_02_02_02_02_02_02_02_02_02_02_02_02_02_02_02_02_02_02_02_02_02_02_01_02_02_02_02_02_02_02_02,
  0x02_02_02_02_02_02_02_02_02_02_02_02_02_02_02_02_02_02_02_02_02_02_02_02_02_02_02_02_02_02_02_02_02_02_02_02_02_02_02_02_02_02_02_02_02_02_02_02_02_02_02_02_02_02_02_02_02_02_02_02_02_02_02_02,
  0x02_02_02_02_02_02_02_02_02_02_02_02_02_02_02_02_02_02_02_02_02_02_02_02_02_02_02_02_02_02_02_02_02_02_02_02_02_02_02_02_02_02_02_02_02_02_02_02_02_02_02_02_02_02_02_02_02_02_02_02_02_02_02_02,
  0x02_02_02_02_02_02_02_02_02_02_02_02_02_02_02_02_02_02_02_02_02_02_02_02_02_02_02_02_02_02_02_02_02_02_02_02_02_02_02_02_02_02_02_02_02_02_02_02_02_02_02_02_02_02_02_02_02_02_02_02_02_02_02_02,
  0x02_02_02_02_02_02_02_02_02_02_02_02_02_02_02_02_02_02_02_02_02_02_02_02_02_02_02_02_02_02_02_02_02_02_02_02_02_02_02_02_02_02_02_02_02_02_02_02_02_02_02_02_02_02_02_02_02_02_02_02_02_02_02_02,
  0x02_02_02_02_02_02_02_02_02_02_02_02_02_02_02_02_02_02_02_02_02_02_02_02_02_02_02_02_02_02_02_02_02_02_02_02_02_02_02_02_02_02_02_02_02_02_02_02_02_02_02_02_02_02_02_02_02_02_02_02_02_02_02_02,
  0x02_02_02_02_02_02_02_02_02_02_02_02_02_02_02_02_02_02_02_02_02_02_02_02_02_02_02_02_02_02_02_02_02_02_02_02_02_02_02_02_02_02_02_02_02_02_02_02_02_02_02_02_02_02_02_02_02_02_02_02_02_02_02_02,
  0x02_02_02_02_02_02_02_02_02_02_02_02_02_02_02_02_02_02_02_02_02_02_02_02_02_02_02_02_02_02_02_02_02_02_02_02_02_02_02_02_02_02_02_02_02_02_02_02_02_02_02_02_02_02_02_02_02_02_02_02_02_02_02_02,
  0x02_02_02_02_02_02_02_01_05_01_01_01_05_01_02_02_01_02_02_02_02_02_02_02_01_01_01_01_02_01_02_05_02_02_02_02_02_02_02_02_02_02_02_02_02_02_02_02_02_02_02_02_02_02_02_02_02_02_02_02_02_02_02_02,
  0x09_09_09_09_09_09_09_09_09_09_09_09_09_09_09_09_09_09_09_09_09_09_09_09_09_09_09_09_09_09_09_09_09_09_09_09_09_09_09_09_09_09_09_09_09_09_09_09_09_09_09_09_09_09_09_09_09_09_09_09_09_09_09_09,
  0x09_09_09_09_09_09_09_09_09_09_09_09_09_09_09_0c_09_09_09_09_09_09_09_09_09_09_09_09_0c_0c_0c_0c_0c_0c_0c_09_09_09_09_09_09_09_09_09_09_09_09_09_02_02_02_02_02_02_02_02_00_00_02_02_02_02_10_02,
  0x00_00_00_00_02_02_02_02_02_02_02_00_02_00_02_02_02_02_02_02_02_02_02_02_02_02_02_02_02_02_02_02_02_02_00_02_02_02_02_02_02_02_02_02_02_02_02_02_02_02_02_02_02_02_02_02_02_02_02_02_02_02_02_02,
  0x02_02_02_02_02_02_02_02_02_02_02_02_02_02_02_02_02_02_02_02_02_02_02_02_02_02_02_02_02_02_02_02_02_02_02_02_02_02_02_02_02_02_02_02_02_02_02_02_02_02_02_02_02_02_02_02_02_02_02_02_02_02_02_02,
  0x02_02_02_02_02_02_02_02_02_02_02_02_02_02_02_02_02_02_02_02_02_02_02_02_02_02_02_02_02_02_02_02_02_02_02_02_02_02_02_02_02_02_02_02_02_02_02_02_02_02_02_02_02_02_02_02_02_02_02_02_02_02_02_02,
  0x02_02_02_02_02_02_02_02_02_02_02_02_02_02_02_02_02_02_02_02_02_02_02_02_02_02_02_02_02_02_02_02_02_02_02_02_02_02_02_02_02_02_02_02_02_02_02_02_02_02_02_02_02_02_02_02_02_02_02_02_02_02_02_02,
  0x02_02_02_09_09_09_09_09_09_09_02_02_02_02_02_02_02_02_02_02_02_02_02_02_02_02_02_02_02_02_02_02_02_02_02_02_02_02_02_02_02_02_02_02_02_02_02_02_02_02_02_02_02_02_02_02_02_02_02_02_02_02_02_02,
  0x02_02_02_02_02_02_02_02_02_02_02_02_02_02_02_02_02_02_02_02_02_02_02_02_02_02_02_02_02_02_02_02_02_02_02_02_02_02_02_02_02_02_02_02_02_02_02_02_02_02_02_02_02_02_02_02_02_02_02_02_02_02_02_02,
  0x02_02_02_02_02_02_02_02_02_02_02_02_02_02_02_02_02_02_02_02_02_02_02_02_02_02_02_02_02_02_02_02_02_02_02_02_02_02_02_02_02_02_02_02_02_02_02_02_00_02_02_02_02_02_02_02_02_02_02_02_02_02_02_02,
  0x02_02_02_02_02_02_02_02_02_02_02_02_02_02_02_02_02_02_02_02_02_02_02_00_00_02_02_02_02_02_02_02_00_02_02_02_02_02_02_02_02_02_02_02_02_02_02_02_02_02_02_02_02_02_02_02_02_02_02_02_02_02_02_02,
  0x02_02_02_02_02_02_02_02_00_10_04_00_00_02_02_16_00_09_09_09_09_09_09_09_09_09_09_09_09_09_09_09_09_09_09_09_09_09_09_09_09_09_09_09_09_09_09_09_09_09_09_09_09_09_09_09_09_09_09_09_09_09_04_09,
  0x02_09_09_02_09_09_0b_09_00_00_00_00_00_00_00_00_26_26_26_26_26_26_26_26_26_26_26_26_26_26_26_26_26_26_26_26_26_26_26_26_26_26_26_00_00_00_00_00_26_26_26_02_02_00_00_00_00_00_00_00_00_00_00_00,
  0x02_02_02_02_02_02_02_02_02_15_15_15_10_10_02_02_09_09_09_09_09_09_09_09_09_09_09_0b_09_00_0b_0b_02_02_02_02_02_02_02_02_02_02_02_02_02_02_02_02_02_02_02_02_02_02_02_02_02_02_02_02_02_02_02_02,
  0x02_02_02_02_02_02_02_02_02_02_02_09_09_09_09_09_09_09_09_09_09_09_09_09_09_09_09_09_09_09_09_09_13_13_13_13_13_13_13_13_13_13_15_13_13_02_02_02_09_02_02_02_02_02_02_02_02_02_02_02_02_02_02_02,
  0x02_02_02_02_02_02_02_02_02_02_02_02_02_02_02_02_02_02_02_02_02_02_02_02_02_02_02_02_02_02_02_02_02_02_02_02_02_02_02_02_02_02_02_02_02_02_02_02_02_02_02_02_02_02_02_02_02_02_02_02_02_02_02_02,
  0x02_02_02_02_02_02_02_02_02_02_02_02_02_02_02_02_02_02_02_02_0b_02_09_09_09_09_09_09_09_02_02_09_09_09_09_09_09_02_02_09_09_02_09_09_09_09_02_02_13_13_13_13_13_13_13_13_13_13_02_02_02_02_02_02,
  0x02_02_02_02_02_02_02_02_02_02_02_02_02_02_00_02_02_09_02_02_02_02_02_02_02_02_02_02_02_02_02_02_02_02_02_02_02_02_02_02_02_02_02_02_02_02_02_02_09_09_09_09_09_09_09_09_09_09_09_09_09_09_09_09,
  0x09_09_09_09_09_09_09_09_09_09_09_00_00_02_02_02_02_02_02_02_02_02_02_02_02_02_02_02_02_02_02_02_02_02_02_02_02_02_02_02_02_02_02_02_02_02_02_02_02_02_02_02_02_02_02_02_02_02_02_02_02_02_02_02,
  0x02_02_02_02_02_02_02_02_02_02_02_02_02_02_02_02_02_02_02_02_02_02_02_02_02_02_02_02_02_02_02_02_02_02_02_02_02_02_09_09_09_09_09_09_09_09_09_09_09_02_00_00_00_00_00_00_00_00_00_00_00_00_00_00,
  0x13_13_13_13_13_13_13_13_13_13_02_02_02_02_02_02_02_02_02_02_02_02_02_02_02_02_02_02_02_02_02_02_02_02_02_02_02_02_02_02_02_02_02_09_09_09_09_09_09_09_09_09_02_02_02_02_10_0b_02_00_00_00_00_00]

/-- `LINEBREAK_3_ROOT`, unicode/src/tables.rs:108-174: 1024 entries in rows of 64. -/
def lb3Root : List Nat := [
  0xff_ff_ff_ff_ff_ff_ff_ff_ff_ff_ff_ff_ff_ff_ff_ff_ff_ff_ff_ff_ff_ff_ff_ff_ff_ff_ff_ff_ff_ff_ff_ff_00_01_02_03_04_05_06_07_08_09_0a_0b_0c_0d_0e_0f_10_11_12_13_14_15_16_17_18_19_1a_1b_1c_1d_1e_1f,
  0x20_21_22_23_24_25_26_27_28_29_2a_2b_2c_2d_2e_2f_30_28_28_28_28_28_28_28_28_28_31_32_33_34_20_35_36_37_38_39_3a_3b_3c_3d_3e_3f_40_41_42_43_44_45_46_47_48_49_28_28_28_4a_28_28_28_28_4b_4c_4d_4e,
  0x4f_50_51_52_53_54_55_56_57_58_59_5a_5b_28_28_5c_5d_5e_5f_60_5f_61_62_63_64_65_66_67_68_69_6a_6b_28_28_28_28_28_28_6c_6d_28_28_28_28_28_6e_6f_70_71_72_28_73_74_75_76_77_78_79_7a_7b_7c_7c_7c_7d,
  0x7e_7f_80_81_82_7c_83_84_85_86_7c_87_7c_7c_7c_7c_7c_7c_7c_7c_7c_7c_7c_7c_7c_7c_7c_7c_7c_7c_7c_7c_7c_7c_7c_7c_7c_7c_7c_7c_7c_7c_7c_7c_7c_7c_7c_7c_7c_7c_7c_7c_7c_7c_7c_7c_7c_7c_7c_7c_7c_7c_7c_7c,
  0x7c_7c_7c_7c_7c_7c_7c_7c_7c_7c_7c_7c_7c_7c_7c_7c_7c_7c_7c_7c_7c_7c_7c_7c_7c_7c_7c_7c_7c_7c_7c_7c_7c_7c_7c_7c_7c_7c_7c_7c_7c_7c_7c_7c_7c_7c_7c_7c_7c_7c_7c_7c_7c_7c_7c_28_7c_7c_7c_7c_7c_7c_7c_7c,
  0x7c_7c_7c_7c_7c_7c_7c_7c_7c_7c_7c_7c_7c_7c_7c_7c_7c_7c_7c_7c_7c_7c_7c_7c_7c_7c_7c_7c_7c_7c_7c_7c_7c_7c_7c_7c_7c_7c_7c_7c_7c_7c_7c_7c_7c_7c_7c_7c_7c_7c_7c_7c_7c_7c_7c_7c_7c_7c_7c_7c_7c_7c_7c_7c,
  0x7c_7c_7c_7c_7c_7c_7c_7c_7c_7c_7c_7c_7c_7c_7c_7c_7c_7c_7c_7c_7c_7c_7c_7c_7c_7c_7c_7c_7c_7c_7c_7c_7c_7c_7c_7c_7c_7c_7c_7c_7c_7c_7c_7c_7c_7c_7c_7c_7c_7c_7c_7c_7c_7c_7c_7c_7c_7c_7c_7c_7c_7c_7c_7c,
  0x7c_7c_7c_7c_7c_7c_7c_7c_7c_7c_7c_7c_7c_7c_7c_7c_7c_7c_7c_7c_7c_7c_7c_7c_7c_7c_7c_7c_7c_7c_7c_7c_7c_7c_7c_7c_7c_7c_7c_7c_7c_7c_7c_7c_7c_7c_7c_7c_7c_7c_7c_7c_7c_7c_7c_7c_7c_7c_7c_7c_7c_7c_7c_7c,
  0x7c_7c_7c_7c_7c_7c_7c_7c_7c_7c_7c_7c_7c_7c_7c_7c_7c_7c_7c_7c_7c_7c_7c_7c_7c_7c_7c_7c_7c_7c_7c_7c_7c_7c_7c_7c_7c_7c_7c_7c_7c_7c_7c_7c_7c_7c_7c_7c_7c_7c_7c_7c_7c_7c_7c_7c_7c_7c_7c_7c_7c_7c_7c_7c,
  0x7c_7c_7c_7c_7c_7c_7c_7c_7c_7c_7c_7c_7c_7c_7c_7c_7c_7c_7c_7c_7c_7c_7c_7c_7c_7c_7c_7c_7c_7c_7c_7c_7c_7c_7c_7c_7c_7c_7c_7c_7c_7c_7c_7c_7c_7c_7c_7c_7c_7c_7c_7c_7c_7c_7c_7c_7c_7c_7c_7c_7c_7c_7c_7c,
  0x88_7c_7c_7c_7c_7c_7c_7c_7c_7c_7c_7c_7c_7c_7c_7c_7c_7c_89_8a_28_28_28_28_8b_8c_8d_8e_28_28_8f_90_91_92_93_94_95_96_97_98_99_9a_20_9b_9c_9d_28_9e_9f_a0_a1_a2_a3_a4_a5_9f_a0_a1_a2_a3_a4_a5_9f_a0,
  0xa1_a2_a3_a4_a5_9f_a0_a1_a2_a3_a4_a5_9f_a0_a1_a2_a3_a4_a5_9f_a0_a1_a2_a3_a4_a5_9f_a0_a1_a2_a3_a4_a5_9f_a0_a1_a2_a3_a4_a5_9f_a0_a1_a2_a3_a4_a5_9f_a0_a1_a2_a3_a4_a5_9f_a0_a1_a2_a3_a4_a5_9f_a0_a1,
  0xa2_a3_a4_a5_9f_a0_a1_a2_a3_a4_a5_9f_a0_a1_a2_a3_a4_a5_9f_a0_a1_a2_a3_a4_a5_9f_a0_a1_a2_a3_a4_a5_9f_a0_a1_a2_a3_a4_a5_9f_a0_a1_a2_a3_a4_a5_9f_a0_a1_a2_a3_a4_a5_9f_a0_a1_a2_a3_a4_a5_9f_a0_a1_a2,
  0xa3_a4_a5_9f_a0_a1_a2_a3_a4_a5_9f_a0_a1_a2_a3_a4_a5_9f_a0_a1_a2_a3_a4_a5_9f_a0_a1_a2_a3_a4_a6_a7_a8_a8_a8_a8_a8_a8_a8_a8_a8_a8_a8_a8_a8_a8_a8_a8_a8_a8_a8_a8_a8_a8_a8_a8_a8_a8_a8_a8_a8_a8_a8_a8,
  0x41_41_41_41_41_41_41_41_41_41_41_41_41_41_41_41_41_41_41_41_41_41_41_41_41_41_41_41_41_41_41_41_41_41_41_41_41_41_41_41_41_41_41_41_41_41_41_41_41_41_41_41_41_41_41_41_41_41_41_41_41_41_41_41,
  0x41_41_41_41_41_41_41_41_41_41_41_41_41_41_41_41_41_41_41_41_41_41_41_41_41_41_41_41_41_41_41_41_41_41_41_41_7c_7c_7c_7c_7c_7c_7c_7c_a9_aa_28_ab_28_28_28_28_ac_ad_ae_af_b0_b1_28_b2_b3_b4_b5_b6]

/-- `LINEBREAK_3_CHILD`, unicode/src/tables.rs:177-688: 11712 entries in rows of 64. -/
def lb3Child : List Nat := [
  0x02_02_02_02_02_02_02_02_02_02_02_02_02_02_02_02_02_02_02_02_02_02_09_09_09_09_02_09_09_09_09_09_09_09_09_09_02_09_09_09_02_09_09_09_09_09_00_00_02_02_02_02_02_02_02_02_02_02_02_02_02_02_02_00,
  0x02_02_02_02_02_02_02_02_02_02_02_02_02_02_02_02_02_02_02_02_02_02_02_02_02_09_09_09_00_00_02_00_02_02_02_02_02_02_02_02_02_02_02_00_00_00_00_00_00_00_00_00_00_00_00_00_00_00_00_00_00_00_00_00,
  0x00_00_00_00_00_00_00_00_00_00_00_00_00_00_00_00_00_00_00_00_00_00_00_00_00_00_00_00_00_00_00_00_02_02_02_02_02_02_02_02_02_02_02_02_02_02_02_02_02_02_02_02_02_00_02_02_02_02_02_02_02_02_00_00,
  0x00_00_00_00_00_00_00_00_00_00_00_00_00_00_00_00_00_00_00_00_09_09_09_09_09_09_09_09_09_09_09_09_09_09_02_09_09_09_09_09_09_09_09_09_09_09_09_09_09_09_09_09_09_09_09_09_09_09_09_09_09_09_09_09,
  0x09_09_09_09_02_02_02_02_02_02_02_02_02_02_02_02_02_02_02_02_02_02_02_02_02_02_02_02_02_02_02_02_02_02_02_02_02_02_02_02_02_02_02_02_02_02_02_02_02_02_02_02_02_02_02_02_02_02_09_09_09_02_09_09,
  0x09_09_09_09_09_09_09_09_09_09_09_09_09_09_09_09_02_09_09_09_09_09_09_09_02_02_02_02_02_02_02_02_02_02_09_09_04_04_13_13_13_13_13_13_13_13_13_13_02_02_02_02_02_02_02_02_02_02_02_02_02_02_02_02,
  0x02_09_09_09_00_02_02_02_02_02_02_02_02_00_00_02_02_00_00_02_02_02_02_02_02_02_02_02_02_02_02_02_02_02_02_02_02_02_02_02_02_00_02_02_02_02_02_02_02_00_02_00_00_00_02_02_02_02_00_00_09_02_09_09,
  0x09_09_09_09_09_00_00_09_09_00_00_09_09_09_02_00_00_00_00_00_00_00_00_09_00_00_00_00_02_02_00_02_02_02_09_09_00_00_13_13_13_13_13_13_13_13_13_13_02_02_15_15_02_02_02_02_02_15_02_16_02_02_00_00,
  0x00_09_09_09_00_02_02_02_02_02_02_00_00_00_00_02_02_00_00_02_02_02_02_02_02_02_02_02_02_02_02_02_02_02_02_02_02_02_02_02_02_00_02_02_02_02_02_02_02_00_02_02_00_02_02_00_02_02_00_00_09_00_09_09,
  0x09_09_09_00_00_00_00_09_09_00_00_09_09_09_00_00_00_09_00_00_00_00_00_00_00_02_02_02_02_00_02_00_00_00_00_00_00_00_13_13_13_13_13_13_13_13_13_13_09_09_02_02_02_09_00_00_00_00_00_00_00_00_00_00,
  0x00_09_09_09_00_02_02_02_02_02_02_02_02_02_00_02_02_02_00_02_02_02_02_02_02_02_02_02_02_02_02_02_02_02_02_02_02_02_02_02_02_00_02_02_02_02_02_02_02_00_02_02_00_02_02_02_02_02_00_00_09_02_09_09,
  0x09_09_09_09_09_09_00_09_09_09_00_09_09_09_00_00_02_00_00_00_00_00_00_00_00_00_00_00_00_00_00_00_02_02_09_09_00_00_13_13_13_13_13_13_13_13_13_13_02_16_00_00_00_00_00_00_00_02_09_09_09_09_09_09,
  0x00_09_09_09_00_02_02_02_02_02_02_02_02_00_00_02_02_00_00_02_02_02_02_02_02_02_02_02_02_02_02_02_02_02_02_02_02_02_02_02_02_00_02_02_02_02_02_02_02_00_02_02_00_02_02_02_02_02_00_00_09_02_09_09,
  0x09_09_09_09_09_00_00_09_09_00_00_09_09_09_00_00_00_00_00_00_00_00_09_09_00_00_00_00_02_02_00_02_02_02_09_09_00_00_13_13_13_13_13_13_13_13_13_13_02_02_02_02_02_02_02_02_00_00_00_00_00_00_00_00,
  0x00_00_09_02_00_02_02_02_02_02_02_00_00_00_02_02_02_00_02_02_02_02_00_00_00_02_02_00_02_00_02_02_00_00_00_02_02_00_00_00_02_02_02_00_00_00_02_02_02_02_02_02_02_02_02_02_02_02_00_00_00_00_09_09,
  0x09_09_09_00_00_00_09_09_09_00_09_09_09_09_00_00_02_00_00_00_00_00_00_09_00_00_00_00_00_00_00_00_00_00_00_00_00_00_13_13_13_13_13_13_13_13_13_13_02_02_02_02_02_02_02_02_02_16_02_00_00_00_00_00,
  0x09_09_09_09_00_02_02_02_02_02_02_02_02_00_02_02_02_00_02_02_02_02_02_02_02_02_02_02_02_02_02_02_02_02_02_02_02_02_02_02_02_00_02_02_02_02_02_02_02_02_02_02_02_02_02_02_02_02_00_00_00_02_09_09,
  0x09_09_09_09_09_00_09_09_09_00_09_09_09_09_00_00_00_00_00_00_00_09_09_00_02_02_02_00_00_00_00_00_02_02_09_09_00_00_13_13_13_13_13_13_13_13_13_13_00_00_00_00_00_00_00_00_02_02_02_02_02_02_02_02,
  0x02_09_09_09_00_02_02_02_02_02_02_02_02_00_02_02_02_00_02_02_02_02_02_02_02_02_02_02_02_02_02_02_02_02_02_02_02_02_02_02_02_00_02_02_02_02_02_02_02_02_02_02_00_02_02_02_02_02_00_00_09_02_09_09,
  0x09_09_09_09_09_00_09_09_09_00_09_09_09_09_00_00_00_00_00_00_00_09_09_00_00_00_00_00_00_00_02_00_02_02_09_09_00_00_13_13_13_13_13_13_13_13_13_13_00_02_02_00_00_00_00_00_00_00_00_00_00_00_00_00,
  0x09_09_09_09_00_02_02_02_02_02_02_02_02_00_02_02_02_00_02_02_02_02_02_02_02_02_02_02_02_02_02_02_02_02_02_02_02_02_02_02_02_02_02_02_02_02_02_02_02_02_02_02_02_02_02_02_02_02_02_09_09_02_09_09,
  0x09_09_09_09_09_00_09_09_09_00_09_09_09_09_02_02_00_00_00_00_02_02_02_09_02_02_02_02_02_02_02_02_02_02_09_09_00_00_13_13_13_13_13_13_13_13_13_13_02_02_02_02_02_02_02_02_02_15_02_02_02_02_02_02,
  0x00_00_09_09_00_02_02_02_02_02_02_02_02_02_02_02_02_02_02_02_02_02_02_00_00_00_02_02_02_02_02_02_02_02_02_02_02_02_02_02_02_02_02_02_02_02_02_02_02_02_00_02_02_02_02_02_02_02_02_02_00_02_00_00,
  0x02_02_02_02_02_02_02_00_00_00_09_00_00_00_00_09_09_09_09_09_09_00_09_00_09_09_09_09_09_09_09_09_00_00_00_00_00_00_13_13_13_13_13_13_13_13_13_13_00_00_09_09_02_00_00_00_00_00_00_00_00_00_00_00,
  0x00_18_18_18_18_18_18_18_18_18_18_18_18_18_18_18_18_18_18_18_18_18_18_18_18_18_18_18_18_18_18_18_18_18_18_18_18_18_18_18_18_18_18_18_18_18_18_18_18_18_18_18_18_18_18_18_18_18_18_00_00_00_00_16,
  0x18_18_18_18_18_18_18_18_18_18_18_18_18_18_18_02_13_13_13_13_13_13_13_13_13_13_04_04_00_00_00_00_00_00_00_00_00_00_00_00_00_00_00_00_00_00_00_00_00_00_00_00_00_00_00_00_00_00_00_00_00_00_00_00,
  0x00_18_18_00_18_00_00_18_18_00_18_00_00_18_00_00_00_00_00_00_18_18_18_18_00_18_18_18_18_18_18_18_00_18_18_18_00_18_00_18_00_00_18_18_00_18_18_18_18_18_18_18_18_18_18_18_18_18_00_18_18_18_00_00,
  0x18_18_18_18_18_00_18_00_18_18_18_18_18_18_00_00_13_13_13_13_13_13_13_13_13_13_00_00_18_18_18_18_00_00_00_00_00_00_00_00_00_00_00_00_00_00_00_00_00_00_00_00_00_00_00_00_00_00_00_00_00_00_00_00,
  0x02_05_05_05_05_02_05_05_0c_05_05_04_0c_0b_0b_0b_0b_0b_0c_02_0b_02_02_02_09_09_02_02_02_02_02_02_13_13_13_13_13_13_13_13_13_13_02_02_02_02_02_02_02_02_02_02_04_09_02_09_02_09_14_08_14_08_09_09,
  0x02_02_02_02_02_02_02_02_00_02_02_02_02_02_02_02_02_02_02_02_02_02_02_02_02_02_02_02_02_02_02_02_02_02_02_02_02_02_02_02_02_02_02_02_02_00_00_00_00_09_09_09_09_09_09_09_09_09_09_09_09_09_09_04,
  0x09_09_09_09_09_04_09_09_02_02_02_02_02_09_09_09_09_09_09_09_09_09_09_09_00_09_09_09_09_09_09_09_09_09_09_09_09_09_09_09_09_09_09_09_09_09_09_09_09_09_09_09_09_09_09_09_09_09_09_09_09_00_04_04,
  0x02_02_02_02_02_02_09_02_02_02_02_02_02_00_02_02_05_05_04_05_02_02_02_02_02_0c_0c_00_00_00_00_00_00_00_00_00_00_00_00_00_00_00_00_00_00_00_00_00_00_00_00_00_00_00_00_00_00_00_00_00_00_00_00_00,
  0x18_18_18_18_18_18_18_18_18_18_18_18_18_18_18_18_18_18_18_18_18_18_18_18_18_18_18_18_18_18_18_18_18_18_18_18_18_18_18_18_18_18_18_18_18_18_18_18_18_18_18_18_18_18_18_18_18_18_18_18_18_18_18_18,
  0x13_13_13_13_13_13_13_13_13_13_04_04_02_02_02_02_18_18_18_18_18_18_18_18_18_18_18_18_18_18_18_18_18_18_18_18_18_18_18_18_18_18_18_18_18_18_18_18_18_18_18_18_18_18_18_18_18_18_18_18_18_18_18_18,
  0x18_18_18_18_18_18_18_18_18_18_18_18_18_18_18_18_13_13_13_13_13_13_13_13_13_13_18_18_18_18_18_18_02_02_02_02_02_02_02_02_02_02_02_02_02_02_02_02_02_02_02_02_02_02_02_02_02_02_02_02_02_02_02_02,
  0x02_02_02_02_02_02_00_02_00_00_00_00_00_02_00_00_02_02_02_02_02_02_02_02_02_02_02_02_02_02_02_02_02_02_02_02_02_02_02_02_02_02_02_02_02_02_02_02_02_02_02_02_02_02_02_02_02_02_02_02_02_02_02_02,
  0x21_21_21_21_21_21_21_21_21_21_21_21_21_21_21_21_21_21_21_21_21_21_21_21_21_21_21_21_21_21_21_21_21_21_21_21_21_21_21_21_21_21_21_21_21_21_21_21_21_21_21_21_21_21_21_21_21_21_21_21_21_21_21_21,
  0x21_21_21_21_21_21_21_21_21_21_21_21_21_21_21_21_21_21_21_21_21_21_21_21_21_21_21_21_21_21_21_21_23_23_23_23_23_23_23_23_23_23_23_23_23_23_23_23_23_23_23_23_23_23_23_23_23_23_23_23_23_23_23_23,
  0x23_23_23_23_23_23_23_23_23_23_23_23_23_23_23_23_23_23_23_23_23_23_23_23_23_23_23_23_23_23_23_23_23_23_23_23_23_23_23_23_22_22_22_22_22_22_22_22_22_22_22_22_22_22_22_22_22_22_22_22_22_22_22_22,
  0x22_22_22_22_22_22_22_22_22_22_22_22_22_22_22_22_22_22_22_22_22_22_22_22_22_22_22_22_22_22_22_22_22_22_22_22_22_22_22_22_22_22_22_22_22_22_22_22_22_22_22_22_22_22_22_22_22_22_22_22_22_22_22_22,
  0x02_02_02_02_02_02_02_02_02_02_02_02_02_02_02_02_02_02_02_02_02_02_02_02_02_02_02_02_02_02_02_02_02_02_02_02_02_02_02_02_02_02_02_02_02_02_02_02_02_02_02_02_02_02_02_02_02_02_02_02_02_02_02_02,
  0x02_02_02_02_02_02_02_02_02_00_02_02_02_02_00_00_02_02_02_02_02_02_02_00_02_00_02_02_02_02_00_00_02_02_02_02_02_02_02_02_02_02_02_02_02_02_02_02_02_02_02_02_02_02_02_02_02_02_02_02_02_02_02_02,
  0x02_02_02_02_02_02_02_02_02_00_02_02_02_02_00_00_02_02_02_02_02_02_02_02_02_02_02_02_02_02_02_02_02_02_02_02_02_02_02_02_02_02_02_02_02_02_02_02_02_00_02_02_02_02_00_00_02_02_02_02_02_02_02_00,
  0x02_00_02_02_02_02_00_00_02_02_02_02_02_02_02_02_02_02_02_02_02_02_02_00_02_02_02_02_02_02_02_02_02_02_02_02_02_02_02_02_02_02_02_02_02_02_02_02_02_02_02_02_02_02_02_02_02_02_02_02_02_02_02_02,
  0x02_02_02_02_02_02_02_02_02_02_02_02_02_02_02_02_02_00_02_02_02_02_00_00_02_02_02_02_02_02_02_02_02_02_02_02_02_02_02_02_02_02_02_02_02_02_02_02_02_02_02_02_02_02_02_02_02_02_02_02_02_02_02_02,
  0x02_02_02_02_02_02_02_02_02_02_02_02_02_02_02_02_02_02_02_02_02_02_02_02_02_02_02_00_00_09_09_09_02_04_02_02_02_02_02_02_02_02_02_02_02_02_02_02_02_02_02_02_02_02_02_02_02_02_02_02_02_00_00_00,
  0x02_02_02_02_02_02_02_02_02_02_02_02_02_02_02_02_02_02_02_02_02_02_02_02_02_02_00_00_00_00_00_00_02_02_02_02_02_02_02_02_02_02_02_02_02_02_02_02_02_02_02_02_02_02_02_02_02_02_02_02_02_02_02_02,
  0x02_02_02_02_02_02_02_02_02_02_02_02_02_02_02_02_02_02_02_02_02_02_02_02_02_02_02_02_02_02_02_02_02_02_02_02_02_02_02_02_02_02_02_02_02_02_02_02_02_02_02_02_02_02_00_00_02_02_02_02_02_02_00_00,
  0x04_02_02_02_02_02_02_02_02_02_02_02_02_02_02_02_02_02_02_02_02_02_02_02_02_02_02_02_02_02_02_02_02_02_02_02_02_02_02_02_02_02_02_02_02_02_02_02_02_02_02_02_02_02_02_02_02_02_02_02_02_02_02_02,
  0x04_02_02_02_02_02_02_02_02_02_02_02_02_02_02_02_02_02_02_02_02_02_02_02_02_02_02_14_08_00_00_00_02_02_02_02_02_02_02_02_02_02_02_02_02_02_02_02_02_02_02_02_02_02_02_02_02_02_02_02_02_02_02_02,
  0x02_02_02_02_02_02_02_02_02_02_02_02_02_02_02_02_02_02_02_02_02_02_02_02_02_02_02_02_02_02_02_02_02_02_02_02_02_02_02_02_02_02_02_04_04_04_02_02_02_02_02_02_02_02_02_02_02_00_00_00_00_00_00_00,
  0x02_02_02_02_02_02_02_02_02_02_02_02_02_00_02_02_02_02_09_09_09_00_00_00_00_00_00_00_00_00_00_00_02_02_02_02_02_02_02_02_02_02_02_02_02_02_02_02_02_02_09_09_09_04_04_00_00_00_00_00_00_00_00_00,
  0x02_02_02_02_02_02_02_02_02_02_02_02_02_02_02_02_02_02_09_09_00_00_00_00_00_00_00_00_00_00_00_00_02_02_02_02_02_02_02_02_02_02_02_02_02_00_02_02_02_00_09_09_00_00_00_00_00_00_00_00_00_00_00_00,
  0x18_18_18_18_18_18_18_18_18_18_18_18_18_18_18_18_18_18_18_18_04_04_12_18_04_02_04_16_18_18_00_00_13_13_13_13_13_13_13_13_13_13_00_00_00_00_00_00_02_02_02_02_02_02_02_02_02_02_00_00_00_00_00_00,
  0x02_02_0b_0b_04_04_05_02_0b_0b_02_09_09_09_0c_00_13_13_13_13_13_13_13_13_13_13_00_00_00_00_00_00_02_02_02_02_02_02_02_02_02_02_02_02_02_02_02_02_02_02_02_02_02_02_02_02_02_02_02_02_02_02_02_02,
  0x02_02_02_02_02_02_02_02_02_02_02_02_02_02_02_02_02_02_02_02_02_02_02_02_02_02_02_02_02_02_02_02_02_02_02_02_02_02_02_02_02_02_02_02_02_02_02_02_02_02_02_02_02_02_02_02_00_00_00_00_00_00_00_00,
  0x02_02_02_02_02_09_09_02_02_02_02_02_02_02_02_02_02_02_02_02_02_02_02_02_02_02_02_02_02_02_02_02_02_02_02_02_02_02_02_02_02_09_02_00_00_00_00_00_02_02_02_02_02_02_02_02_02_02_02_02_02_02_02_02,
  0x02_02_02_02_02_02_02_02_02_02_02_02_02_02_02_02_02_02_02_02_02_02_02_02_02_02_02_02_02_02_02_02_02_02_02_02_02_02_02_02_02_02_02_02_02_02_02_02_02_02_02_02_02_02_00_00_00_00_00_00_00_00_00_00,
  0x02_02_02_02_02_02_02_02_02_02_02_02_02_02_02_02_02_02_02_02_02_02_02_02_02_02_02_02_02_02_02_00_09_09_09_09_09_09_09_09_09_09_09_09_00_00_00_00_09_09_09_09_09_09_09_09_09_09_09_09_00_00_00_00,
  0x02_00_00_00_0b_0b_13_13_13_13_13_13_13_13_13_13_18_18_18_18_18_18_18_18_18_18_18_18_18_18_18_18_18_18_18_18_18_18_18_18_18_18_18_18_18_18_00_00_18_18_18_18_18_00_00_00_00_00_00_00_00_00_00_00,
  0x18_18_18_18_18_18_18_18_18_18_18_18_18_18_18_18_18_18_18_18_18_18_18_18_18_18_18_18_18_18_18_18_18_18_18_18_18_18_18_18_18_18_18_18_00_00_00_00_18_18_18_18_18_18_18_18_18_18_18_18_18_18_18_18,
  0x18_18_18_18_18_18_18_18_18_18_00_00_00_00_00_00_13_13_13_13_13_13_13_13_13_13_18_00_00_00_18_18_02_02_02_02_02_02_02_02_02_02_02_02_02_02_02_02_02_02_02_02_02_02_02_02_02_02_02_02_02_02_02_02,
  0x02_02_02_02_02_02_02_02_02_02_02_02_02_02_02_02_02_02_02_02_02_02_02_09_09_09_09_09_00_00_02_02_18_18_18_18_18_18_18_18_18_18_18_18_18_18_18_18_18_18_18_18_18_18_18_18_18_18_18_18_18_18_18_18,
  0x18_18_18_18_18_18_18_18_18_18_18_18_18_18_18_18_18_18_18_18_18_18_18_18_18_18_18_18_18_18_18_00_18_18_18_18_18_18_18_18_18_18_18_18_18_18_18_18_18_18_18_18_18_18_18_18_18_18_18_18_18_00_00_09,
  0x13_13_13_13_13_13_13_13_13_13_00_00_00_00_00_00_13_13_13_13_13_13_13_13_13_13_00_00_00_00_00_00_18_18_18_18_18_18_18_18_18_18_18_18_18_18_00_00_09_09_09_09_09_09_09_09_09_09_09_09_09_09_09_00,
  0x00_00_00_00_00_00_00_00_00_00_00_00_00_00_00_00_00_00_00_00_00_00_00_00_00_00_00_00_00_00_00_00_00_00_00_00_00_00_00_00_00_00_00_00_00_00_00_00_00_00_00_00_00_00_00_00_00_00_00_00_00_00_00_00,
  0x09_09_09_09_09_02_02_02_02_02_02_02_02_02_02_02_02_02_02_02_02_02_02_02_02_02_02_02_02_02_02_02_02_02_02_02_02_02_02_02_02_02_02_02_02_02_02_02_02_02_02_02_09_09_09_09_09_09_09_09_09_09_09_09,
  0x09_09_09_09_09_02_02_02_02_02_02_02_00_00_00_00_13_13_13_13_13_13_13_13_13_13_04_04_02_04_04_04_04_02_02_02_02_02_02_02_02_02_02_09_09_09_09_09_09_09_09_09_02_02_02_02_02_02_02_02_02_00_00_00,
  0x09_09_09_02_02_02_02_02_02_02_02_02_02_02_02_02_02_02_02_02_02_02_02_02_02_02_02_02_02_02_02_02_02_09_09_09_09_09_09_09_09_09_09_09_09_09_02_02_13_13_13_13_13_13_13_13_13_13_02_02_02_02_02_02,
  0x02_02_02_02_02_02_02_02_02_02_02_02_02_02_02_02_02_02_02_02_02_02_02_02_02_02_02_02_02_02_02_02_02_02_02_02_02_02_09_09_09_09_09_09_09_09_09_09_09_09_09_09_00_00_00_00_00_00_00_00_02_02_02_02,
  0x02_02_02_02_02_02_02_02_02_02_02_02_02_02_02_02_02_02_02_02_02_02_02_02_02_02_02_02_02_02_02_02_02_02_02_02_09_09_09_09_09_09_09_09_09_09_09_09_09_09_09_09_09_09_09_09_00_00_00_04_04_04_04_04,
  0x13_13_13_13_13_13_13_13_13_13_00_00_00_02_02_02_13_13_13_13_13_13_13_13_13_13_02_02_02_02_02_02_02_02_02_02_02_02_02_02_02_02_02_02_02_02_02_02_02_02_02_02_02_02_02_02_02_02_02_02_02_02_04_04,
  0x02_02_02_02_02_02_02_02_02_00_00_00_00_00_00_00_00_00_00_00_00_00_00_00_00_00_00_00_00_00_00_00_00_00_00_00_00_00_00_00_00_00_00_00_00_00_00_00_00_00_00_00_00_00_00_00_00_00_00_00_00_00_00_00,
  0x02_02_02_02_02_02_02_02_00_00_00_00_00_00_00_00_09_09_09_02_09_09_09_09_09_09_09_09_09_09_09_09_09_09_09_09_09_09_09_09_09_02_02_02_02_09_02_02_02_02_09_09_09_02_02_09_09_09_00_00_00_00_00_00,
  0x09_09_09_09_09_09_09_09_09_09_09_09_09_09_09_09_09_09_09_09_09_09_09_09_09_09_09_09_09_09_09_09_09_09_09_09_09_09_09_09_09_09_09_09_09_09_09_09_09_09_09_09_09_09_09_09_09_09_00_09_09_09_09_09,
  0x02_02_02_02_02_02_02_02_02_02_02_02_02_02_02_02_02_02_02_02_02_02_00_00_02_02_02_02_02_02_00_00_02_02_02_02_02_02_02_02_02_02_02_02_02_02_02_02_02_02_02_02_02_02_02_02_02_02_02_02_02_02_02_02,
  0x02_02_02_02_02_02_00_00_02_02_02_02_02_02_00_00_02_02_02_02_02_02_02_02_00_02_00_02_00_02_00_02_02_02_02_02_02_02_02_02_02_02_02_02_02_02_02_02_02_02_02_02_02_02_02_02_02_02_02_02_02_02_00_00,
  0x02_02_02_02_02_02_02_02_02_02_02_02_02_02_02_02_02_02_02_02_02_02_02_02_02_02_02_02_02_02_02_02_02_02_02_02_02_02_02_02_02_02_02_02_02_02_02_02_02_02_02_02_02_00_02_02_02_02_02_02_02_02_02_02,
  0x02_02_02_02_02_00_02_02_02_02_02_02_02_02_02_02_02_02_02_02_00_00_02_02_02_02_02_02_00_02_02_02_02_02_02_02_02_02_02_02_02_02_02_02_02_02_02_02_00_00_02_02_02_00_02_02_02_02_02_02_02_05_02_00,
  0x04_04_04_04_04_04_04_0c_04_04_04_1c_09_2a_09_09_04_0c_04_04_03_01_01_02_17_17_14_17_17_17_14_17_01_01_02_02_0f_0f_0f_04_06_06_09_09_09_09_09_0c_15_15_15_15_15_15_15_15_02_17_17_01_12_12_02_02,
  0x02_02_02_02_10_14_08_12_12_12_02_02_02_02_02_02_02_02_02_02_02_02_04_02_04_04_04_04_02_04_04_04_1e_02_02_02_02_00_09_09_09_09_09_09_09_09_09_09_02_02_00_00_01_02_02_02_02_02_02_02_02_14_08_01,
  0x02_01_01_01_01_02_02_02_02_02_02_02_02_14_08_00_02_02_02_02_02_02_02_02_02_02_02_02_02_00_00_00_16_16_16_16_16_16_16_15_16_16_16_16_16_16_16_16_16_16_16_16_16_16_15_16_16_16_16_15_16_16_15_16,
  0x16_16_16_16_16_16_16_16_16_16_16_16_16_16_16_16_09_09_09_09_09_09_09_09_09_09_09_09_09_09_09_09_09_09_09_09_09_09_09_09_09_09_09_09_09_09_09_09_09_00_00_00_00_00_00_00_00_00_00_00_00_00_00_00,
  0x02_02_02_15_02_01_02_02_02_15_02_02_02_02_02_02_02_02_02_01_02_02_16_02_02_02_02_02_02_02_02_02_02_01_01_02_02_02_02_02_02_02_02_01_02_02_02_02_02_02_02_02_02_02_02_02_02_02_02_02_02_02_02_02,
  0x02_02_02_02_02_02_02_02_02_02_02_02_02_02_02_02_02_02_02_02_01_01_02_02_02_02_02_01_02_02_01_02_01_01_01_01_01_01_01_01_01_01_01_01_02_02_02_02_01_01_01_01_01_01_01_01_01_01_02_02_02_02_02_02,
  0x02_02_02_02_02_02_02_02_02_01_02_02_00_00_00_00_01_01_01_01_01_01_01_01_01_01_02_02_02_02_02_02_02_02_02_02_02_02_02_02_02_02_02_02_02_02_02_02_02_02_02_02_02_02_02_02_02_02_02_02_02_02_02_02,
  0x02_02_02_02_02_02_02_02_02_02_02_02_02_02_02_02_02_02_01_02_01_02_02_02_02_02_02_02_02_02_02_02_02_02_02_02_02_02_02_02_02_02_02_02_02_02_02_02_02_02_02_02_02_02_02_02_02_02_02_02_02_02_02_02,
  0x01_02_01_01_02_02_02_01_01_02_02_01_02_02_02_01_02_01_16_16_02_01_02_02_02_02_01_02_02_01_01_01_01_02_02_01_02_01_02_01_01_01_01_01_01_02_01_02_02_02_02_02_01_01_01_01_02_02_02_02_01_01_02_02,
  0x02_02_02_02_02_02_02_02_01_02_02_02_01_02_02_02_02_02_01_02_02_02_02_02_02_02_02_02_02_02_02_02_01_01_02_02_01_01_01_01_02_02_01_01_02_02_01_01_02_02_02_02_02_02_02_02_02_02_02_02_02_02_02_02,
  0x02_02_01_01_02_02_01_01_02_02_02_02_02_02_02_02_02_02_02_02_02_01_02_02_02_01_02_02_02_02_02_02_02_02_02_02_02_01_02_02_02_02_02_02_02_02_02_02_02_02_02_02_02_02_02_02_02_02_02_02_02_02_02_01,
  0x02_02_02_02_02_02_02_02_02_02_02_02_02_02_02_02_02_02_02_02_02_02_02_02_02_02_02_02_02_02_02_02_02_02_02_02_02_02_02_02_02_02_02_02_02_02_02_0f_02_02_02_02_02_02_02_02_02_02_02_02_02_02_02_02,
  0x02_02_02_02_02_02_02_02_14_08_14_08_02_02_02_02_02_02_01_02_02_02_02_02_02_02_0e_0e_02_02_02_02_02_02_02_02_02_02_02_02_02_14_08_02_02_02_02_02_02_02_02_02_02_02_02_02_02_02_02_02_02_02_02_02,
  0x02_02_02_02_02_02_02_02_02_02_02_02_02_02_02_02_02_02_02_02_02_02_02_02_02_02_02_02_02_02_02_02_02_02_02_02_02_02_02_02_02_02_02_02_02_02_02_02_0e_0e_0e_0e_02_02_02_02_02_02_02_02_02_02_02_02,
  0x02_02_02_02_02_02_02_02_02_02_02_02_02_02_02_02_02_02_02_02_02_02_02_02_02_02_02_02_02_02_02_02_02_02_02_02_02_02_02_00_00_00_00_00_00_00_00_00_00_00_00_00_00_00_00_00_00_00_00_00_00_00_00_00,
  0x02_02_02_02_02_02_02_02_02_02_02_00_00_00_00_00_00_00_00_00_00_00_00_00_00_00_00_00_00_00_00_00_01_01_01_01_01_01_01_01_01_01_01_01_01_01_01_01_01_01_01_01_01_01_01_01_01_01_01_01_01_01_01_01,
  0x01_01_01_01_01_01_01_01_01_01_01_01_01_01_01_01_01_01_01_01_01_01_01_01_01_01_01_01_01_01_01_01_01_01_01_01_01_01_01_01_01_01_01_01_01_01_01_01_01_01_01_01_01_01_01_01_01_01_01_01_01_01_01_01,
  0x01_01_01_01_01_01_01_01_01_01_01_01_01_01_01_01_01_01_01_01_01_01_01_01_01_01_01_01_01_01_01_01_01_01_01_01_01_01_01_01_01_01_01_01_01_01_01_01_01_01_01_01_01_01_01_01_01_01_01_01_01_01_01_02,
  0x01_01_01_01_01_01_01_01_01_01_01_01_02_02_02_02_01_01_01_01_01_01_01_01_01_01_01_01_01_01_01_01_01_01_01_01_01_01_01_01_01_01_01_01_01_01_01_01_01_01_01_01_01_02_02_02_02_02_02_02_02_02_02_02,
  0x01_01_01_01_01_01_01_01_01_01_01_01_01_01_01_01_02_02_01_01_01_01_02_02_02_02_02_02_02_02_02_02_01_01_02_01_01_01_01_01_01_01_02_02_02_02_02_02_02_02_01_01_02_02_01_01_02_02_02_02_01_01_02_02,
  0x01_01_02_02_02_02_01_01_01_02_02_01_02_02_01_01_01_01_02_02_02_02_02_02_02_02_02_02_02_02_02_02_02_02_01_01_01_01_02_02_02_02_02_02_02_02_02_01_02_02_02_02_02_02_02_02_02_02_02_02_02_02_02_02,
  0x0e_0e_0e_0e_02_01_01_02_02_01_02_02_02_02_01_01_02_02_02_02_0e_0e_01_01_0e_02_0e_0e_0e_28_0e_0e_02_02_02_02_02_02_02_02_02_02_02_02_02_02_02_02_02_02_02_02_02_02_02_02_02_0e_0e_0e_02_02_02_02,
  0x01_02_01_02_02_02_02_02_02_02_02_02_02_02_02_02_02_02_02_02_02_02_02_02_02_02_02_02_02_02_02_02_01_01_02_01_01_01_02_01_0e_01_01_02_01_01_02_01_02_02_02_02_02_02_02_02_02_02_02_02_02_02_02_0e,
  0x02_02_02_02_02_02_02_02_02_02_02_02_02_02_02_02_02_02_02_02_02_02_02_02_02_02_02_02_02_02_01_01_02_02_02_02_02_02_02_02_02_02_02_02_02_02_02_02_02_02_02_02_02_02_02_02_02_02_02_02_02_0e_0e_0e,
  0x0e_0e_0e_0e_0e_0e_0e_0e_0e_01_01_01_01_0e_02_0e_0e_0e_01_0e_0e_01_01_01_0e_0e_01_01_0e_01_01_0e_0e_0e_02_01_02_02_02_02_01_01_0e_01_01_01_01_01_01_0e_0e_0e_0e_0e_01_0e_0e_28_0e_01_01_0e_0e_0e,
  0x0e_0e_0e_0e_0e_02_02_02_0e_0e_28_28_28_28_02_02_02_02_02_02_02_02_02_02_02_02_02_02_02_02_02_02_02_02_02_02_02_02_02_02_02_02_02_02_02_02_02_02_02_02_02_02_02_02_02_02_02_02_02_02_02_02_02_02,
  0x02_02_02_02_02_02_02_02_02_02_02_02_02_02_02_02_02_02_02_02_02_02_02_01_02_02_02_17_17_17_17_17_17_02_0b_0b_0e_02_02_02_14_08_14_08_14_08_14_08_14_08_14_08_14_08_01_01_01_01_01_01_01_01_01_01,
  0x01_01_01_01_01_01_01_01_01_01_01_01_01_01_01_01_01_01_01_01_02_02_02_02_02_02_02_02_02_02_02_02_02_02_02_02_02_02_02_02_02_02_02_02_02_02_02_02_02_02_02_02_02_02_02_02_02_02_02_02_02_02_02_02,
  0x02_02_02_02_02_14_08_02_02_02_02_02_02_02_02_02_02_02_02_02_02_02_02_02_02_02_02_02_02_02_02_02_02_02_02_02_02_02_14_08_14_08_14_08_14_08_14_08_02_02_02_02_02_02_02_02_02_02_02_02_02_02_02_02,
  0x02_02_02_14_08_14_08_14_08_14_08_14_08_14_08_14_08_14_08_14_08_14_08_14_08_02_02_02_02_02_02_02_02_02_02_02_02_02_02_02_02_02_02_02_02_02_02_02_02_02_02_02_02_02_02_02_02_02_02_02_02_02_02_02,
  0x02_02_02_02_02_02_02_02_02_02_02_02_02_02_02_02_02_02_02_02_02_02_02_02_14_08_14_08_02_02_02_02_02_02_02_02_02_02_02_02_02_02_02_02_02_02_02_02_02_02_02_02_02_02_02_02_02_02_02_02_14_08_02_02,
  0x02_02_02_02_02_02_02_02_02_02_02_02_02_02_02_02_02_02_02_02_02_01_01_01_01_01_02_02_02_02_02_02_02_02_02_02_02_02_02_02_02_02_02_02_02_02_02_02_02_02_02_02_00_00_02_02_02_02_02_02_02_02_02_02,
  0x02_02_02_02_02_02_02_02_02_02_02_02_02_02_02_02_02_02_02_02_02_02_00_00_02_02_02_02_02_02_02_02_02_02_02_02_02_02_02_02_02_02_02_02_02_02_02_02_02_02_02_02_02_02_02_02_02_02_00_00_00_02_02_02,
  0x02_02_02_02_02_02_02_02_02_00_02_02_02_02_02_02_02_02_02_00_00_00_00_00_00_00_00_00_00_00_00_00_00_00_00_00_00_00_00_00_00_00_00_00_02_02_02_02_00_00_00_00_00_00_00_00_00_00_00_00_00_00_00_00,
  0x02_02_02_02_02_02_02_02_02_02_02_02_02_02_02_02_02_02_02_02_02_02_02_02_02_02_02_02_02_02_02_02_02_02_02_02_02_02_02_02_02_02_02_02_02_02_02_00_02_02_02_02_02_02_02_02_02_02_02_02_02_02_02_02,
  0x02_02_02_02_02_02_02_02_02_02_02_02_02_02_02_02_02_02_02_02_02_02_02_02_02_02_02_02_02_02_02_00_02_02_02_02_02_02_02_02_02_02_02_02_02_02_02_02_02_02_02_02_02_02_02_02_02_02_02_02_02_02_02_02,
  0x02_02_02_02_02_02_02_02_02_02_02_02_02_02_02_02_02_02_02_02_02_02_02_02_02_02_02_02_02_02_02_02_02_02_02_02_02_02_02_02_02_02_02_02_02_02_02_09_09_09_02_02_00_00_00_00_00_0b_04_04_04_02_0b_04,
  0x02_02_02_02_02_02_02_02_02_02_02_02_02_02_02_02_02_02_02_02_02_02_02_02_02_02_02_02_02_02_02_02_02_02_02_02_02_02_00_02_00_00_00_00_00_02_00_00_02_02_02_02_02_02_02_02_02_02_02_02_02_02_02_02,
  0x02_02_02_02_02_02_02_02_02_02_02_02_02_02_02_02_02_02_02_02_02_02_02_02_02_02_02_02_02_02_02_02_02_02_02_02_02_02_02_02_00_00_00_00_00_00_00_02_04_00_00_00_00_00_00_00_00_00_00_00_00_00_00_09,
  0x02_02_02_02_02_02_02_02_02_02_02_02_02_02_02_02_02_02_02_02_02_02_02_00_00_00_00_00_00_00_00_00_02_02_02_02_02_02_02_00_02_02_02_02_02_02_02_00_02_02_02_02_02_02_02_00_02_02_02_02_02_02_02_00,
  0x02_02_02_02_02_02_02_00_02_02_02_02_02_02_02_00_02_02_02_02_02_02_02_00_02_02_02_02_02_02_02_00_09_09_09_09_09_09_09_09_09_09_09_09_09_09_09_09_09_09_09_09_09_09_09_09_09_09_09_09_09_09_09_09,
  0x17_17_17_17_17_17_17_17_17_17_17_17_17_17_04_04_04_04_04_04_04_04_02_04_14_04_02_02_17_17_02_02_17_17_14_08_14_08_14_08_14_08_04_04_04_04_0b_02_04_04_02_04_04_02_02_02_02_02_03_03_04_04_04_02,
  0x04_04_14_04_04_04_04_04_04_04_00_00_00_00_00_00_00_00_00_00_00_00_00_00_00_00_00_00_00_00_00_00_00_00_00_00_00_00_00_00_00_00_00_00_00_00_00_00_00_00_00_00_00_00_00_00_00_00_00_00_00_00_00_00,
  0x0e_0e_0e_0e_0e_0e_0e_0e_0e_0e_0e_0e_0e_0e_0e_0e_0e_0e_0e_0e_0e_0e_0e_0e_0e_0e_00_0e_0e_0e_0e_0e_0e_0e_0e_0e_0e_0e_0e_0e_0e_0e_0e_0e_0e_0e_0e_0e_0e_0e_0e_0e_0e_0e_0e_0e_0e_0e_0e_0e_0e_0e_0e_0e,
  0x0e_0e_0e_0e_0e_0e_0e_0e_0e_0e_0e_0e_0e_0e_0e_0e_0e_0e_0e_0e_0e_0e_0e_0e_0e_0e_0e_0e_0e_0e_0e_0e_0e_0e_0e_0e_0e_0e_0e_0e_0e_0e_0e_0e_0e_0e_0e_0e_0e_0e_0e_0e_00_00_00_00_00_00_00_00_00_00_00_00,
  0x0e_0e_0e_0e_0e_0e_0e_0e_0e_0e_0e_0e_0e_0e_0e_0e_0e_0e_0e_0e_0e_0e_0e_0e_0e_0e_0e_0e_0e_0e_0e_0e_0e_0e_0e_0e_0e_0e_0e_0e_0e_0e_0e_0e_0e_0e_0e_0e_0e_0e_0e_0e_0e_0e_0e_0e_0e_0e_0e_0e_0e_0e_0e_0e,
  0x0e_0e_0e_0e_0e_0e_0e_0e_0e_0e_0e_0e_0e_0e_0e_0e_0e_0e_0e_0e_0e_0e_00_00_00_00_00_00_00_00_00_00_00_00_00_00_00_00_00_00_00_00_00_00_00_00_00_00_0e_0e_0e_0e_0e_0e_0e_0e_0e_0e_0e_0e_00_00_00_00,
  0x04_08_08_0e_0e_12_0e_0e_14_08_14_08_14_08_14_08_14_08_0e_0e_14_08_14_08_14_08_14_08_12_14_08_08_0e_0e_0e_0e_0e_0e_0e_0e_0e_0e_09_09_09_09_09_09_0e_0e_0e_0e_0e_09_0e_0e_0e_0e_0e_12_12_0e_0e_0e,
  0x00_25_0e_25_0e_25_0e_25_0e_25_0e_0e_0e_0e_0e_0e_0e_0e_0e_0e_0e_0e_0e_0e_0e_0e_0e_0e_0e_0e_0e_0e_0e_0e_0e_25_0e_0e_0e_0e_0e_0e_0e_0e_0e_0e_0e_0e_0e_0e_0e_0e_0e_0e_0e_0e_0e_0e_0e_0e_0e_0e_0e_0e,
  0x0e_0e_0e_25_0e_25_0e_25_0e_0e_0e_0e_0e_0e_25_0e_0e_0e_0e_0e_0e_25_25_00_00_09_09_12_12_12_12_0e_12_25_0e_25_0e_25_0e_25_0e_25_0e_0e_0e_0e_0e_0e_0e_0e_0e_0e_0e_0e_0e_0e_0e_0e_0e_0e_0e_0e_0e_0e,
  0x0e_0e_0e_25_0e_0e_0e_0e_0e_0e_0e_0e_0e_0e_0e_0e_0e_0e_0e_0e_0e_0e_0e_0e_0e_0e_0e_0e_0e_0e_0e_0e_0e_0e_0e_25_0e_25_0e_25_0e_0e_0e_0e_0e_0e_25_0e_0e_0e_0e_0e_0e_25_25_0e_0e_0e_0e_12_25_12_12_0e,
  0x00_00_00_00_00_0e_0e_0e_0e_0e_0e_0e_0e_0e_0e_0e_0e_0e_0e_0e_0e_0e_0e_0e_0e_0e_0e_0e_0e_0e_0e_0e_0e_0e_0e_0e_0e_0e_0e_0e_0e_0e_0e_0e_0e_0e_0e_00_00_0e_0e_0e_0e_0e_0e_0e_0e_0e_0e_0e_0e_0e_0e_0e,
  0x0e_0e_0e_0e_0e_0e_0e_0e_0e_0e_0e_0e_0e_0e_0e_00_0e_0e_0e_0e_0e_0e_0e_0e_0e_0e_0e_0e_0e_0e_0e_0e_0e_0e_0e_0e_0e_0e_0e_0e_0e_0e_0e_0e_0e_0e_0e_0e_0e_0e_0e_0e_0e_0e_0e_0e_0e_0e_0e_00_00_00_00_00,
  0x0e_0e_0e_0e_0e_0e_0e_0e_0e_0e_0e_0e_0e_0e_0e_0e_0e_0e_0e_0e_0e_0e_0e_0e_0e_0e_0e_0e_0e_0e_0e_0e_0e_0e_0e_0e_00_00_00_00_00_00_00_00_00_00_00_00_25_25_25_25_25_25_25_25_25_25_25_25_25_25_25_25,
  0x0e_0e_0e_0e_0e_0e_0e_0e_0e_0e_0e_0e_0e_0e_0e_0e_0e_0e_0e_0e_0e_0e_0e_0e_0e_0e_0e_0e_0e_0e_0e_00_0e_0e_0e_0e_0e_0e_0e_0e_0e_0e_0e_0e_0e_0e_0e_0e_0e_0e_0e_0e_0e_0e_0e_0e_0e_0e_0e_0e_0e_0e_0e_0e,
  0x0e_0e_0e_0e_0e_0e_0e_0e_01_01_01_01_01_01_01_01_0e_0e_0e_0e_0e_0e_0e_0e_0e_0e_0e_0e_0e_0e_0e_0e_0e_0e_0e_0e_0e_0e_0e_0e_0e_0e_0e_0e_0e_0e_0e_0e_0e_0e_0e_0e_0e_0e_0e_0e_0e_0e_0e_0e_0e_0e_0e_0e,
  0x0e_0e_0e_0e_0e_0e_0e_0e_0e_0e_0e_0e_0e_0e_0e_0e_0e_0e_0e_0e_0e_0e_0e_0e_0e_0e_0e_0e_0e_0e_0e_0e_0e_0e_0e_0e_0e_0e_0e_0e_0e_0e_0e_0e_0e_0e_0e_0e_0e_0e_0e_0e_0e_0e_0e_0e_0e_0e_0e_0e_0e_0e_0e_00,
  0x0e_0e_0e_0e_0e_0e_0e_0e_0e_0e_0e_0e_0e_0e_0e_0e_0e_0e_0e_0e_0e_12_0e_0e_0e_0e_0e_0e_0e_0e_0e_0e_0e_0e_0e_0e_0e_0e_0e_0e_0e_0e_0e_0e_0e_0e_0e_0e_0e_0e_0e_0e_0e_0e_0e_0e_0e_0e_0e_0e_0e_0e_0e_0e,
  0x0e_0e_0e_0e_0e_0e_0e_0e_0e_0e_0e_0e_0e_00_00_00_0e_0e_0e_0e_0e_0e_0e_0e_0e_0e_0e_0e_0e_0e_0e_0e_0e_0e_0e_0e_0e_0e_0e_0e_0e_0e_0e_0e_0e_0e_0e_0e_0e_0e_0e_0e_0e_0e_0e_0e_0e_0e_0e_0e_0e_0e_0e_0e,
  0x0e_0e_0e_0e_0e_0e_0e_00_00_00_00_00_00_00_00_00_02_02_02_02_02_02_02_02_02_02_02_02_02_02_02_02_02_02_02_02_02_02_02_02_02_02_02_02_02_02_02_02_02_02_02_02_02_02_02_02_02_02_02_02_02_02_04_04,
  0x02_02_02_02_02_02_02_02_02_02_02_02_02_04_0b_04_02_02_02_02_02_02_02_02_02_02_02_02_02_02_02_02_13_13_13_13_13_13_13_13_13_13_02_02_00_00_00_00_00_00_00_00_00_00_00_00_00_00_00_00_00_00_00_00,
  0x02_02_02_02_02_02_02_02_02_02_02_02_02_02_02_02_02_02_02_02_02_02_02_02_02_02_02_02_02_02_02_02_02_02_02_02_02_02_02_02_02_02_02_02_02_02_02_09_09_09_09_02_09_09_09_09_09_09_09_09_09_09_02_02,
  0x02_02_02_02_02_02_02_02_02_02_02_02_02_02_02_02_02_02_02_02_02_02_02_02_02_02_02_02_02_02_09_09_02_02_02_02_02_02_02_02_02_02_02_02_02_02_02_02_02_02_02_02_02_02_02_02_02_02_02_02_02_02_02_02,
  0x02_02_02_02_02_02_02_02_02_02_02_02_02_02_02_02_02_02_02_02_02_02_02_02_02_02_02_02_02_02_02_02_02_02_02_02_02_02_02_02_02_02_02_02_02_02_02_02_09_09_02_04_04_04_04_04_00_00_00_00_00_00_00_00,
  0x02_02_02_02_02_02_02_02_02_02_02_02_02_02_02_02_02_02_02_02_02_02_02_02_02_02_02_02_02_02_02_02_02_02_02_02_02_02_02_02_02_02_02_02_02_02_02_00_02_02_02_02_02_02_02_02_00_00_00_00_00_00_00_00,
  0x00_00_00_00_00_00_00_00_00_00_00_00_00_00_00_00_00_00_00_00_00_00_00_00_00_00_00_00_00_00_00_00_00_00_00_00_00_00_00_00_00_00_00_00_00_00_00_00_00_00_00_00_00_00_00_02_02_02_02_02_02_02_02_02,
  0x02_02_09_02_02_02_09_02_02_02_02_09_02_02_02_02_02_02_02_02_02_02_02_02_02_02_02_02_02_02_02_02_02_02_02_09_09_09_09_09_02_02_02_02_00_00_00_00_02_02_02_02_02_02_02_02_15_02_00_00_00_00_00_00,
  0x02_02_02_02_02_02_02_02_02_02_02_02_02_02_02_02_02_02_02_02_02_02_02_02_02_02_02_02_02_02_02_02_02_02_02_02_02_02_02_02_02_02_02_02_02_02_02_02_02_02_02_02_05_05_0b_0b_00_00_00_00_00_00_00_00,
  0x09_09_02_02_02_02_02_02_02_02_02_02_02_02_02_02_02_02_02_02_02_02_02_02_02_02_02_02_02_02_02_02_02_02_02_02_02_02_02_02_02_02_02_02_02_02_02_02_02_02_02_02_09_09_09_09_09_09_09_09_09_09_09_09,
  0x09_09_09_09_09_09_00_00_00_00_00_00_00_00_04_04_13_13_13_13_13_13_13_13_13_13_00_00_00_00_00_00_09_09_09_09_09_09_09_09_09_09_09_09_09_09_09_09_09_09_02_02_02_02_02_02_02_02_02_02_05_02_00_00,
  0x13_13_13_13_13_13_13_13_13_13_02_02_02_02_02_02_02_02_02_02_02_02_02_02_02_02_02_02_02_02_02_02_02_02_02_02_02_02_09_09_09_09_09_09_09_09_04_04_02_02_02_02_02_02_02_02_02_02_02_02_02_02_02_02,
  0x02_02_02_02_02_02_02_09_09_09_09_09_09_09_09_09_09_09_09_09_00_00_00_00_00_00_00_00_00_00_00_02_21_21_21_21_21_21_21_21_21_21_21_21_21_21_21_21_21_21_21_21_21_21_21_21_21_21_21_21_21_00_00_00,
  0x09_09_09_09_02_02_02_02_02_02_02_02_02_02_02_02_02_02_02_02_02_02_02_02_02_02_02_02_02_02_02_02_02_02_02_02_02_02_02_02_02_02_02_02_02_02_02_02_02_02_02_09_09_09_09_09_09_09_09_09_09_09_09_09,
  0x09_02_02_02_02_02_02_04_04_04_02_02_02_02_00_02_13_13_13_13_13_13_13_13_13_13_00_00_00_00_02_02_18_18_18_18_18_18_18_18_18_18_18_18_18_18_18_18_13_13_13_13_13_13_13_13_13_13_18_18_18_18_18_00,
  0x02_02_02_02_02_02_02_02_02_02_02_02_02_02_02_02_02_02_02_02_02_02_02_02_02_02_02_02_02_02_02_02_02_02_02_02_02_02_02_02_02_09_09_09_09_09_09_09_09_09_09_09_09_09_09_00_00_00_00_00_00_00_00_00,
  0x02_02_02_09_02_02_02_02_02_02_02_02_09_09_00_00_13_13_13_13_13_13_13_13_13_13_00_00_02_04_04_04_18_18_18_18_18_18_18_18_18_18_18_18_18_18_18_18_18_18_18_18_18_18_18_18_18_18_18_18_18_18_18_18,
  0x18_18_18_00_00_00_00_00_00_00_00_00_00_00_00_00_00_00_00_00_00_00_00_00_00_00_00_18_18_18_18_18_02_02_02_02_02_02_02_02_02_02_02_09_09_09_09_09_04_04_02_02_02_09_09_00_00_00_00_00_00_00_00_00,
  0x00_02_02_02_02_02_02_00_00_02_02_02_02_02_02_00_00_02_02_02_02_02_02_00_00_00_00_00_00_00_00_00_02_02_02_02_02_02_02_00_02_02_02_02_02_02_02_00_02_02_02_02_02_02_02_02_02_02_02_02_02_02_02_02,
  0x02_02_02_02_02_02_02_02_02_02_02_02_02_02_02_02_02_02_02_02_02_02_02_02_02_02_02_02_02_02_02_02_02_02_02_02_02_02_00_00_00_00_00_00_00_00_00_00_02_02_02_02_02_02_02_02_02_02_02_02_02_02_02_02,
  0x02_02_02_02_02_02_02_02_02_02_02_02_02_02_02_02_02_02_02_02_02_02_02_02_02_02_02_02_02_02_02_02_02_02_02_09_09_09_09_09_09_09_09_04_09_09_00_00_13_13_13_13_13_13_13_13_13_13_00_00_00_00_00_00,
  0x1f_20_20_20_20_20_20_20_20_20_20_20_20_20_20_20_20_20_20_20_20_20_20_20_20_20_20_20_1f_20_20_20_20_20_20_20_20_20_20_20_20_20_20_20_20_20_20_20_20_20_20_20_20_20_20_20_1f_20_20_20_20_20_20_20,
  0x20_20_20_20_20_20_20_20_20_20_20_20_20_20_20_20_20_20_20_20_1f_20_20_20_20_20_20_20_20_20_20_20_20_20_20_20_20_20_20_20_20_20_20_20_20_20_20_20_1f_20_20_20_20_20_20_20_20_20_20_20_20_20_20_20,
  0x20_20_20_20_20_20_20_20_20_20_20_20_1f_20_20_20_20_20_20_20_20_20_20_20_20_20_20_20_20_20_20_20_20_20_20_20_20_20_20_20_1f_20_20_20_20_20_20_20_20_20_20_20_20_20_20_20_20_20_20_20_20_20_20_20,
  0x20_20_20_20_1f_20_20_20_20_20_20_20_20_20_20_20_20_20_20_20_20_20_20_20_20_20_20_20_20_20_20_20_1f_20_20_20_20_20_20_20_20_20_20_20_20_20_20_20_20_20_20_20_20_20_20_20_20_20_20_20_1f_20_20_20,
  0x20_20_20_20_20_20_20_20_20_20_20_20_20_20_20_20_20_20_20_20_20_20_20_20_1f_20_20_20_20_20_20_20_20_20_20_20_20_20_20_20_20_20_20_20_20_20_20_20_20_20_20_20_1f_20_20_20_20_20_20_20_20_20_20_20,
  0x20_20_20_20_20_20_20_20_20_20_20_20_20_20_20_20_1f_20_20_20_20_20_20_20_20_20_20_20_20_20_20_20_20_20_20_20_20_20_20_20_20_20_20_20_1f_20_20_20_20_20_20_20_20_20_20_20_20_20_20_20_20_20_20_20,
  0x20_20_20_20_20_20_20_20_1f_20_20_20_20_20_20_20_20_20_20_20_20_20_20_20_20_20_20_20_20_20_20_20_20_20_20_20_1f_20_20_20_20_20_20_20_20_20_20_20_20_20_20_20_20_20_20_20_20_20_20_20_20_20_20_20,
  0x20_20_20_20_20_20_20_20_1f_20_20_20_20_20_20_20_20_20_20_20_20_20_20_20_20_20_20_20_20_20_20_20_20_20_20_20_00_00_00_00_00_00_00_00_00_00_00_00_23_23_23_23_23_23_23_23_23_23_23_23_23_23_23_23,
  0x23_23_23_23_23_23_23_00_00_00_00_22_22_22_22_22_22_22_22_22_22_22_22_22_22_22_22_22_22_22_22_22_22_22_22_22_22_22_22_22_22_22_22_22_22_22_22_22_22_22_22_22_22_22_22_22_22_22_22_22_00_00_00_00,
  0x19_19_19_19_19_19_19_19_19_19_19_19_19_19_19_19_19_19_19_19_19_19_19_19_19_19_19_19_19_19_19_19_19_19_19_19_19_19_19_19_19_19_19_19_19_19_19_19_19_19_19_19_19_19_19_19_19_19_19_19_19_19_19_19,
  0x02_02_02_02_02_02_02_00_00_00_00_00_00_00_00_00_00_00_00_02_02_02_02_02_00_00_00_00_00_26_09_26_26_26_26_26_26_26_26_26_26_02_26_26_26_26_26_26_26_26_26_26_26_26_26_00_26_26_26_26_26_00_26_00,
  0x26_26_00_26_26_00_26_26_26_26_26_26_26_26_26_26_02_02_02_02_02_02_02_02_02_02_02_02_02_02_02_02_02_02_02_02_02_02_02_02_02_02_02_02_02_02_02_02_02_02_02_02_02_02_02_02_02_02_02_02_02_02_02_02,
  0x02_02_00_00_00_00_00_00_00_00_00_00_00_00_00_00_00_00_00_02_02_02_02_02_02_02_02_02_02_02_02_02_02_02_02_02_02_02_02_02_02_02_02_02_02_02_02_02_02_02_02_02_02_02_02_02_02_02_02_02_02_02_02_02,
  0x02_02_02_02_02_02_02_02_02_02_02_02_02_02_02_02_02_02_02_02_02_02_02_02_02_02_02_02_02_02_02_02_02_02_02_02_02_02_02_02_02_02_02_02_02_02_02_02_02_02_02_02_02_02_02_02_02_02_02_02_02_02_08_14,
  0x00_00_00_00_00_00_00_00_00_00_00_00_00_00_00_00_02_02_02_02_02_02_02_02_02_02_02_02_02_02_02_02_02_02_02_02_02_02_02_02_02_02_02_02_02_02_02_02_02_02_02_02_02_02_02_02_02_02_02_02_02_02_02_02,
  0x02_02_02_02_02_02_02_02_02_02_02_02_02_02_02_02_00_00_02_02_02_02_02_02_02_02_02_02_02_02_02_02_02_02_02_02_02_02_02_02_02_02_02_02_02_02_02_02_02_02_02_02_02_02_02_02_02_02_02_02_02_02_02_02,
  0x02_02_02_02_02_02_02_02_00_00_00_00_00_00_00_00_00_00_00_00_00_00_00_00_00_00_00_00_00_00_00_00_00_00_00_00_00_00_00_00_00_00_00_00_00_00_00_00_02_02_02_02_02_02_02_02_02_02_02_02_15_02_00_00,
  0x09_09_09_09_09_09_09_09_09_09_09_09_09_09_09_09_10_08_08_10_10_0b_0b_14_08_0f_00_00_00_00_00_00_09_09_09_09_09_09_09_09_09_09_09_09_09_09_09_09_0e_0e_0e_0e_0e_14_08_14_08_14_08_14_08_14_08_14,
  0x08_14_08_14_08_0e_0e_14_08_0e_0e_0e_0e_0e_0e_0e_08_0e_08_00_12_12_0b_0b_0e_14_08_14_08_14_08_0e_0e_0e_0e_0e_0e_0e_0e_00_0e_16_15_0e_00_00_00_00_02_02_02_02_02_00_02_02_02_02_02_02_02_02_02_02,
  0x02_02_02_02_02_02_02_02_02_02_02_02_02_02_02_02_02_02_02_02_02_02_02_02_02_02_02_02_02_02_02_02_02_02_02_02_02_02_02_02_02_02_02_02_02_02_02_02_02_02_02_02_02_02_02_02_02_02_02_02_02_00_00_1e,
  0x00_0b_0e_0e_16_15_0e_0e_14_08_0e_0e_08_0e_08_0e_0e_0e_0e_0e_0e_0e_0e_0e_0e_0e_12_12_0e_0e_0e_0b_0e_0e_0e_0e_0e_0e_0e_0e_0e_0e_0e_0e_0e_0e_0e_0e_0e_0e_0e_0e_0e_0e_0e_0e_0e_0e_0e_14_0e_08_0e_0e,
  0x0e_0e_0e_0e_0e_0e_0e_0e_0e_0e_0e_0e_0e_0e_0e_0e_0e_0e_0e_0e_0e_0e_0e_0e_0e_0e_0e_14_0e_08_0e_14_08_08_14_08_08_12_0e_25_25_25_25_25_25_25_25_25_25_0e_0e_0e_0e_0e_0e_0e_0e_0e_0e_0e_0e_0e_0e_0e,
  0x0e_0e_0e_0e_0e_0e_0e_0e_0e_0e_0e_0e_0e_0e_0e_0e_0e_0e_0e_0e_0e_0e_0e_0e_0e_0e_0e_0e_0e_0e_12_12_0e_0e_0e_0e_0e_0e_0e_0e_0e_0e_0e_0e_0e_0e_0e_0e_0e_0e_0e_0e_0e_0e_0e_0e_0e_0e_0e_0e_0e_0e_0e_00,
  0x00_00_0e_0e_0e_0e_0e_0e_00_00_0e_0e_0e_0e_0e_0e_00_00_0e_0e_0e_0e_0e_0e_00_00_0e_0e_0e_00_00_00_15_16_0e_0e_0e_16_16_00_02_02_02_02_02_02_02_00_00_00_00_00_00_00_00_00_00_09_09_09_07_01_00_00]

/-- `LINEBREAK_4_ROOT`, unicode/src/tables.rs:691-704: 272 entries in rows of 16. -/
def lb4Root : List Nat := [
  0xff_ff_ff_ff_ff_ff_ff_ff_ff_ff_ff_ff_ff_ff_ff_ff,
  0x00_01_02_03_04_05_06_07_08_05_05_09_05_0a_0b_0c,
  0x07_07_07_07_07_07_07_07_07_07_07_07_07_07_07_0d,
  0x07_07_07_07_07_07_07_07_07_07_07_07_07_07_07_0d,
  0x05_05_05_05_05_05_05_05_05_05_05_05_05_05_05_05,
  0x05_05_05_05_05_05_05_05_05_05_05_05_05_05_05_05,
  0x05_05_05_05_05_05_05_05_05_05_05_05_05_05_05_05,
  0x05_05_05_05_05_05_05_05_05_05_05_05_05_05_05_05,
  0x05_05_05_05_05_05_05_05_05_05_05_05_05_05_05_05,
  0x05_05_05_05_05_05_05_05_05_05_05_05_05_05_05_05,
  0x05_05_05_05_05_05_05_05_05_05_05_05_05_05_05_05,
  0x05_05_05_05_05_05_05_05_05_05_05_05_05_05_05_05,
  0x05_05_05_05_05_05_05_05_05_05_05_05_05_05_05_05,
  0x05_05_05_05_05_05_05_05_05_05_05_05_05_05_05_05,
  0x0e_05_05_05_05_05_05_05_05_05_05_05_05_05_05_05,
  0x05_05_05_05_05_05_05_05_05_05_05_05_05_05_05_05,
  0x05_05_05_05_05_05_05_05_05_05_05_05_05_05_05_05]

/-- `LINEBREAK_4_MID`, unicode/src/tables.rs:707-752: 960 entries in rows of 64. -/
def lb4Mid : List Nat := [
  0x00_01_02_03_04_02_05_06_07_07_08_09_0a_0b_0c_0d_02_02_0e_0f_10_11_07_07_02_02_02_02_12_13_07_07_14_15_16_17_18_07_19_1a_1b_1c_1d_1e_1f_20_21_07_02_22_23_24_07_07_07_07_07_25_07_07_07_07_07_07,
  0x26_27_28_29_2a_2b_2c_2d_2e_07_2f_30_31_32_07_07_33_34_35_36_07_07_37_38_35_39_3a_3b_3c_07_07_07_07_07_3d_3e_07_07_07_07_3f_40_41_42_07_07_07_07_43_44_45_07_46_47_07_07_07_07_07_07_07_07_07_07,
  0x02_02_02_02_02_02_02_02_02_02_02_02_02_02_48_07_02_49_02_02_02_4a_07_07_07_07_07_07_07_07_07_07_07_07_07_07_07_07_07_07_07_07_07_07_07_07_07_07_07_07_07_07_07_07_07_07_07_07_07_07_07_07_07_07,
  0x02_02_02_02_02_02_02_02_02_4b_4c_02_02_4d_02_02_4e_07_07_07_07_07_07_07_07_07_07_07_07_07_07_07_07_07_07_07_07_07_07_07_07_07_07_07_07_07_07_07_07_07_07_07_07_07_07_07_07_07_07_07_07_07_07_07,
  0x07_07_07_07_07_07_07_07_07_07_07_07_07_07_07_07_02_02_02_02_02_02_02_4f_02_50_07_07_07_07_07_07_07_07_07_07_07_07_07_07_07_07_07_07_07_07_07_07_07_07_07_07_07_07_07_07_07_07_07_07_07_07_07_07,
  0x07_07_07_07_07_07_07_07_07_07_07_07_07_07_07_07_07_07_07_07_07_07_07_07_07_07_07_07_07_07_07_07_07_07_07_07_07_07_07_07_07_07_07_07_07_07_07_07_07_07_07_07_07_07_07_07_07_07_07_07_07_07_07_07,
  0x07_07_07_07_07_07_07_07_07_07_07_07_07_07_07_07_07_07_07_07_07_07_07_07_07_07_07_07_07_07_07_07_02_02_02_02_02_02_02_02_42_51_07_52_53_54_55_07_07_07_07_07_07_07_07_07_07_07_07_07_02_56_57_58,
  0x59_59_59_59_59_59_59_59_59_59_59_59_59_59_59_59_59_59_59_59_59_59_59_59_59_59_59_59_59_59_59_59_59_59_59_59_59_59_59_59_59_59_59_59_59_59_59_59_59_59_59_59_59_59_59_59_59_59_59_59_59_59_59_59,
  0x59_59_59_59_59_59_59_59_59_59_59_59_59_59_59_59_59_59_59_59_59_59_59_59_59_59_59_59_59_59_59_5a_59_59_59_59_59_59_59_59_59_59_59_5b_07_07_07_07_07_07_07_07_07_07_07_07_07_07_07_07_07_07_07_07,
  0x59_59_59_59_5c_5d_59_59_59_59_59_5e_07_07_07_07_07_07_07_07_07_07_07_07_07_07_07_07_07_07_07_07_07_07_07_07_07_07_07_07_07_07_07_07_07_07_07_07_02_5f_60_07_07_07_07_07_07_07_07_07_07_07_07_07,
  0x02_02_02_61_62_63_64_65_02_66_07_07_02_67_07_07_02_68_69_6a_6b_6c_02_02_02_02_6d_02_02_02_02_6e_02_02_02_02_02_02_02_02_6f_70_71_07_07_07_07_07_07_07_07_07_07_07_07_07_07_07_07_07_07_07_07_07,
  0x72_07_07_07_07_07_07_07_07_07_07_07_07_07_07_07_07_07_07_07_07_07_07_07_07_07_07_07_07_07_07_07_02_02_02_73_02_74_07_07_07_07_07_07_07_07_07_07_07_07_07_07_07_07_07_07_75_76_77_78_07_07_07_07,
  0x59_59_59_59_79_7a_7b_7c_59_59_59_59_59_59_7d_7e_59_7f_80_59_81_82_83_84_59_85_86_87_02_88_02_89_8a_8b_8c_59_8d_59_59_8e_59_59_59_59_59_59_59_59_59_59_59_59_59_59_59_59_59_59_59_59_59_59_59_8f,
  0x59_59_59_59_59_59_59_59_59_59_59_59_59_59_59_59_59_59_59_59_59_59_59_59_59_59_59_59_59_59_59_59_59_59_59_59_59_59_59_59_59_59_59_59_59_59_59_59_59_59_59_59_59_59_59_59_59_59_59_59_59_59_59_8f,
  0x90_91_07_07_91_91_91_92_07_07_07_07_07_07_07_07_07_07_07_07_07_07_07_07_07_07_07_07_07_07_07_07_07_07_07_07_07_07_07_07_07_07_07_07_07_07_07_07_07_07_07_07_07_07_07_07_07_07_07_07_07_07_07_07]

/-- `LINEBREAK_4_LEAVES`, unicode/src/tables.rs:755-1151: 9408 entries in rows of 64. -/
def lb4Leaves : List Nat := [
  0x02_02_02_02_02_02_02_02_02_02_02_02_00_02_02_02_02_02_02_02_02_02_02_02_02_02_02_02_02_02_02_02_02_02_02_02_02_02_02_00_02_02_02_02_02_02_02_02_02_02_02_02_02_02_02_02_02_02_02_00_02_02_00_02,
  0x02_02_02_02_02_02_02_02_02_02_02_02_02_02_00_00_02_02_02_02_02_02_02_02_02_02_02_02_02_02_00_00_00_00_00_00_00_00_00_00_00_00_00_00_00_00_00_00_00_00_00_00_00_00_00_00_00_00_00_00_00_00_00_00,
  0x02_02_02_02_02_02_02_02_02_02_02_02_02_02_02_02_02_02_02_02_02_02_02_02_02_02_02_02_02_02_02_02_02_02_02_02_02_02_02_02_02_02_02_02_02_02_02_02_02_02_02_02_02_02_02_02_02_02_02_02_02_02_02_02,
  0x02_02_02_02_02_02_02_02_02_02_02_02_02_02_02_02_02_02_02_02_02_02_02_02_02_02_02_02_02_02_02_02_02_02_02_02_02_02_02_02_02_02_02_02_02_02_02_02_02_02_02_02_02_02_02_02_02_02_02_00_00_00_00_00,
  0x04_04_04_00_00_00_00_02_02_02_02_02_02_02_02_02_02_02_02_02_02_02_02_02_02_02_02_02_02_02_02_02_02_02_02_02_02_02_02_02_02_02_02_02_02_02_02_02_02_02_02_02_00_00_00_02_02_02_02_02_02_02_02_02,
  0x02_02_02_02_02_02_02_02_02_02_02_02_02_02_02_00_02_02_02_02_02_02_02_02_02_02_02_02_00_00_00_00_02_00_00_00_00_00_00_00_00_00_00_00_00_00_00_00_00_00_00_00_00_00_00_00_00_00_00_00_00_00_00_00,
  0x00_00_00_00_00_00_00_00_00_00_00_00_00_00_00_00_02_02_02_02_02_02_02_02_02_02_02_02_02_02_02_02_02_02_02_02_02_02_02_02_02_02_02_02_02_02_02_02_02_02_02_02_02_02_02_02_02_02_02_02_02_09_00_00,
  0x00_00_00_00_00_00_00_00_00_00_00_00_00_00_00_00_00_00_00_00_00_00_00_00_00_00_00_00_00_00_00_00_00_00_00_00_00_00_00_00_00_00_00_00_00_00_00_00_00_00_00_00_00_00_00_00_00_00_00_00_00_00_00_00,
  0x02_02_02_02_02_02_02_02_02_02_02_02_02_02_02_02_02_02_02_02_02_02_02_02_02_02_02_02_02_00_00_00_02_02_02_02_02_02_02_02_02_02_02_02_02_02_02_02_02_02_02_02_02_02_02_02_02_02_02_02_02_02_02_02,
  0x02_02_02_02_02_02_02_02_02_02_02_02_02_02_02_02_02_00_00_00_00_00_00_00_00_00_00_00_00_00_00_00_09_02_02_02_02_02_02_02_02_02_02_02_02_02_02_02_02_02_02_02_02_02_02_02_02_02_02_02_00_00_00_00,
  0x02_02_02_02_02_02_02_02_02_02_02_02_02_02_02_02_02_02_02_02_02_02_02_02_02_02_02_02_02_02_02_02_02_02_02_02_00_00_00_00_00_00_00_00_00_02_02_02_02_02_02_02_02_02_02_02_02_02_02_02_02_02_02_02,
  0x02_02_02_02_02_02_02_02_02_02_02_00_00_00_00_00_02_02_02_02_02_02_02_02_02_02_02_02_02_02_02_02_02_02_02_02_02_02_02_02_02_02_02_02_02_02_02_02_02_02_02_02_02_02_09_09_09_09_09_00_00_00_00_00,
  0x02_02_02_02_02_02_02_02_02_02_02_02_02_02_02_02_02_02_02_02_02_02_02_02_02_02_02_02_02_02_00_04_02_02_02_02_02_02_02_02_02_02_02_02_02_02_02_02_02_02_02_02_02_02_02_02_02_02_02_02_02_02_02_02,
  0x02_02_02_02_00_00_00_00_02_02_02_02_02_02_02_02_04_02_02_02_02_02_00_00_00_00_00_00_00_00_00_00_00_00_00_00_00_00_00_00_00_00_00_00_00_00_00_00_00_00_00_00_00_00_00_00_00_00_00_00_00_00_00_00,
  0x02_02_02_02_02_02_02_02_02_02_02_02_02_02_02_02_02_02_02_02_02_02_02_02_02_02_02_02_02_02_00_00_13_13_13_13_13_13_13_13_13_13_00_00_00_00_00_00_02_02_02_02_02_02_02_02_02_02_02_02_02_02_02_02,
  0x02_02_02_02_02_02_02_02_02_02_02_02_02_02_02_02_02_02_02_02_00_00_00_00_02_02_02_02_02_02_02_02_02_02_02_02_02_02_02_02_02_02_02_02_02_02_02_02_02_02_02_02_02_02_02_02_02_02_02_02_00_00_00_00,
  0x02_02_02_02_02_02_02_02_02_02_02_02_02_02_02_02_02_02_02_02_02_02_02_02_02_02_02_02_02_02_02_02_02_02_02_02_02_02_02_02_00_00_00_00_00_00_00_00_02_02_02_02_02_02_02_02_02_02_02_02_02_02_02_02,
  0x02_02_02_02_02_02_02_02_02_02_02_02_02_02_02_02_02_02_02_02_02_02_02_02_02_02_02_02_02_02_02_02_02_02_02_02_00_00_00_00_00_00_00_00_00_00_00_02_00_00_00_00_00_00_00_00_00_00_00_00_00_00_00_00,
  0x02_02_02_02_02_02_02_02_02_02_02_02_02_02_02_02_02_02_02_02_02_02_02_02_02_02_02_02_02_02_02_02_02_02_02_02_02_02_02_02_02_02_02_02_02_02_02_02_02_02_02_02_02_02_02_00_00_00_00_00_00_00_00_00,
  0x02_02_02_02_02_02_02_02_02_02_02_02_02_02_02_02_02_02_02_02_02_02_00_00_00_00_00_00_00_00_00_00_02_02_02_02_02_02_02_02_00_00_00_00_00_00_00_00_00_00_00_00_00_00_00_00_00_00_00_00_00_00_00_00,
  0x02_02_02_02_02_02_00_00_02_00_02_02_02_02_02_02_02_02_02_02_02_02_02_02_02_02_02_02_02_02_02_02_02_02_02_02_02_02_02_02_02_02_02_02_02_02_02_02_02_02_02_02_02_02_00_02_02_00_00_00_02_00_00_02,
  0x02_02_02_02_02_02_02_02_02_02_02_02_02_02_02_02_02_02_02_02_02_02_00_04_02_02_02_02_02_02_02_02_02_02_02_02_02_02_02_02_02_02_02_02_02_02_02_02_02_02_02_02_02_02_02_02_02_02_02_02_02_02_02_02,
  0x02_02_02_02_02_02_02_02_02_02_02_02_02_02_02_02_02_02_02_02_02_02_02_02_02_02_02_02_02_02_02_00_00_00_00_00_00_00_00_02_02_02_02_02_02_02_02_02_00_00_00_00_00_00_00_00_00_00_00_00_00_00_00_00,
  0x00_00_00_00_00_00_00_00_00_00_00_00_00_00_00_00_00_00_00_00_00_00_00_00_00_00_00_00_00_00_00_00_02_02_02_02_02_02_02_02_02_02_02_02_02_02_02_02_02_02_02_00_02_02_00_00_00_00_00_02_02_02_02_02,
  0x02_02_02_02_02_02_02_02_02_02_02_02_02_02_02_02_02_02_02_02_02_02_02_02_02_02_02_02_00_00_00_04_02_02_02_02_02_02_02_02_02_02_02_02_02_02_02_02_02_02_02_02_02_02_02_02_02_02_00_00_00_00_00_02,
  0x02_02_02_02_02_02_02_02_02_02_02_02_02_02_02_02_02_02_02_02_02_02_02_02_02_02_02_02_02_02_02_02_02_02_02_02_02_02_02_02_02_02_02_02_02_02_02_02_02_02_02_02_02_02_02_02_00_00_00_00_02_02_02_02,
  0x02_02_02_02_02_02_02_02_02_02_02_02_02_02_02_02_00_00_02_02_02_02_02_02_02_02_02_02_02_02_02_02_02_02_02_02_02_02_02_02_02_02_02_02_02_02_02_02_02_02_02_02_02_02_02_02_02_02_02_02_02_02_02_02,
  0x02_09_09_09_00_09_09_00_00_00_00_00_09_09_09_09_02_02_02_02_00_02_02_02_00_02_02_02_02_02_02_02_02_02_02_02_02_02_02_02_02_02_02_02_02_02_02_02_02_02_02_02_00_00_00_00_09_09_09_00_00_00_00_09,
  0x02_02_02_02_02_02_02_02_00_00_00_00_00_00_00_00_04_04_04_04_04_04_04_04_02_00_00_00_00_00_00_00_02_02_02_02_02_02_02_02_02_02_02_02_02_02_02_02_02_02_02_02_02_02_02_02_02_02_02_02_02_02_02_02,
  0x02_02_02_02_02_02_02_02_02_02_02_02_02_02_02_02_02_02_02_02_02_02_02_02_02_02_02_02_02_02_02_02_00_00_00_00_00_00_00_00_00_00_00_00_00_00_00_00_00_00_00_00_00_00_00_00_00_00_00_00_00_00_00_00,
  0x02_02_02_02_02_02_02_02_02_02_02_02_02_02_02_02_02_02_02_02_02_02_02_02_02_02_02_02_02_02_02_02_02_02_02_02_02_09_09_00_00_00_00_02_02_02_02_02_04_04_04_04_04_04_0f_00_00_00_00_00_00_00_00_00,
  0x02_02_02_02_02_02_02_02_02_02_02_02_02_02_02_02_02_02_02_02_02_02_02_02_02_02_02_02_02_02_02_02_02_02_02_02_02_02_02_02_02_02_02_02_02_02_02_02_02_02_02_02_02_02_00_00_00_04_04_04_04_04_04_04,
  0x02_02_02_02_02_02_02_02_02_02_02_02_02_02_02_02_02_02_02_02_02_02_00_00_02_02_02_02_02_02_02_02_02_02_02_02_02_02_02_02_02_02_02_02_02_02_02_02_02_02_02_00_00_00_00_00_02_02_02_02_02_02_02_02,
  0x02_02_02_02_02_02_02_02_02_02_02_02_02_02_02_02_02_02_00_00_00_00_00_00_00_02_02_02_02_00_00_00_00_00_00_00_00_00_00_00_00_02_02_02_02_02_02_02_00_00_00_00_00_00_00_00_00_00_00_00_00_00_00_00,
  0x02_02_02_02_02_02_02_02_02_00_00_00_00_00_00_00_00_00_00_00_00_00_00_00_00_00_00_00_00_00_00_00_00_00_00_00_00_00_00_00_00_00_00_00_00_00_00_00_00_00_00_00_00_00_00_00_00_00_00_00_00_00_00_00,
  0x02_02_02_02_02_02_02_02_02_02_02_02_02_02_02_02_02_02_02_02_02_02_02_02_02_02_02_02_02_02_02_02_02_02_02_02_02_02_02_02_02_02_02_02_02_02_02_02_02_02_02_00_00_00_00_00_00_00_00_00_00_00_00_00,
  0x02_02_02_02_02_02_02_02_02_02_02_02_02_02_02_02_02_02_02_02_02_02_02_02_02_02_02_02_02_02_02_02_02_02_02_02_02_02_02_02_02_02_02_02_02_02_02_02_02_02_02_00_00_00_00_00_00_00_02_02_02_02_02_02,
  0x00_00_00_00_00_00_00_00_00_00_00_00_00_00_00_00_00_00_00_00_00_00_00_00_00_00_00_00_00_00_00_00_02_02_02_02_02_02_02_02_02_02_02_02_02_02_02_02_02_02_02_02_02_02_02_02_02_02_02_02_02_02_02_00,
  0x09_09_09_02_02_02_02_02_02_02_02_02_02_02_02_02_02_02_02_02_02_02_02_02_02_02_02_02_02_02_02_02_02_02_02_02_02_02_02_02_02_02_02_02_02_02_02_02_02_02_02_02_02_02_02_02_09_09_09_09_09_09_09_09,
  0x09_09_09_09_09_09_09_04_04_02_02_02_02_02_00_00_00_00_02_02_02_02_02_02_02_02_02_02_02_02_02_02_02_02_02_02_02_02_13_13_13_13_13_13_13_13_13_13_00_00_00_00_00_00_00_00_00_00_00_00_00_00_00_09,
  0x09_09_09_02_02_02_02_02_02_02_02_02_02_02_02_02_02_02_02_02_02_02_02_02_02_02_02_02_02_02_02_02_02_02_02_02_02_02_02_02_02_02_02_02_02_02_02_02_09_09_09_09_09_09_09_09_09_09_09_02_02_02_04_04,
  0x04_04_00_00_00_00_00_00_00_00_00_00_00_00_00_00_02_02_02_02_02_02_02_02_02_02_02_02_02_02_02_02_02_02_02_02_02_02_02_02_02_00_00_00_00_00_00_00_13_13_13_13_13_13_13_13_13_13_00_00_00_00_00_00,
  0x09_09_09_02_02_02_02_02_02_02_02_02_02_02_02_02_02_02_02_02_02_02_02_02_02_02_02_02_02_02_02_02_02_02_02_02_02_02_02_09_09_09_09_09_09_09_09_09_09_09_09_09_09_00_13_13_13_13_13_13_13_13_13_13,
  0x04_04_04_04_00_00_00_00_00_00_00_00_00_00_00_00_02_02_02_02_02_02_02_02_02_02_02_02_02_02_02_02_02_02_02_02_02_02_02_02_02_02_02_02_02_02_02_02_02_02_02_09_02_05_02_00_00_00_00_00_00_00_00_00,
  0x09_09_09_02_02_02_02_02_02_02_02_02_02_02_02_02_02_02_02_02_02_02_02_02_02_02_02_02_02_02_02_02_02_02_02_02_02_02_02_02_02_02_02_02_02_02_02_02_02_02_02_09_09_09_09_09_09_09_09_09_09_09_09_09,
  0x09_02_02_02_02_04_04_02_04_02_09_09_09_02_00_00_13_13_13_13_13_13_13_13_13_13_02_05_02_04_04_04_00_02_02_02_02_02_02_02_02_02_02_02_02_02_02_02_02_02_02_02_02_00_00_00_00_00_00_00_00_00_00_00,
  0x02_02_02_02_02_02_02_02_02_02_02_02_02_02_02_02_02_02_00_02_02_02_02_02_02_02_02_02_02_02_02_02_02_02_02_02_02_02_02_02_02_02_02_02_09_09_09_09_09_09_09_09_09_09_09_09_04_04_02_04_04_02_09_00,
  0x02_02_02_02_02_02_02_00_02_00_02_02_02_02_00_02_02_02_02_02_02_02_02_02_02_02_02_02_02_02_00_02_02_02_02_02_02_02_02_02_02_04_00_00_00_00_00_00_02_02_02_02_02_02_02_02_02_02_02_02_02_02_02_02,
  0x02_02_02_02_02_02_02_02_02_02_02_02_02_02_02_02_02_02_02_02_02_02_02_02_02_02_02_02_02_02_02_09_09_09_09_09_09_09_09_09_09_09_09_00_00_00_00_00_13_13_13_13_13_13_13_13_13_13_00_00_00_00_00_00,
  0x09_09_09_09_00_02_02_02_02_02_02_02_02_00_00_02_02_00_00_02_02_02_02_02_02_02_02_02_02_02_02_02_02_02_02_02_02_02_02_02_02_00_02_02_02_02_02_02_02_00_02_02_00_02_02_02_02_02_00_00_09_02_09_09,
  0x09_09_09_09_09_00_00_09_09_00_00_09_09_09_00_00_02_00_00_00_00_00_00_09_00_00_00_00_00_02_02_02_02_02_09_09_00_00_09_09_09_09_09_09_09_00_00_00_09_09_09_09_09_00_00_00_00_00_00_00_00_00_00_00,
  0x02_02_02_02_02_02_02_02_02_02_02_02_02_02_02_02_02_02_02_02_02_02_02_02_02_02_02_02_02_02_02_02_02_02_02_02_02_02_02_02_02_02_02_02_02_02_02_02_02_02_02_02_02_09_09_09_09_09_09_09_09_09_09_09,
  0x09_09_09_09_09_09_09_02_02_02_02_04_04_04_04_02_13_13_13_13_13_13_13_13_13_13_00_04_00_02_00_00_00_00_00_00_00_00_00_00_00_00_00_00_00_00_00_00_00_00_00_00_00_00_00_00_00_00_00_00_00_00_00_00,
  0x02_02_02_02_02_02_02_02_02_02_02_02_02_02_02_02_02_02_02_02_02_02_02_02_02_02_02_02_02_02_02_02_02_02_02_02_02_02_02_02_02_02_02_02_02_02_02_02_09_09_09_09_09_09_09_09_09_09_09_09_09_09_09_09,
  0x09_09_09_09_02_02_02_02_00_00_00_00_00_00_00_00_13_13_13_13_13_13_13_13_13_13_00_00_00_00_00_00_00_00_00_00_00_00_00_00_00_00_00_00_00_00_00_00_00_00_00_00_00_00_00_00_00_00_00_00_00_00_00_00,
  0x02_02_02_02_02_02_02_02_02_02_02_02_02_02_02_02_02_02_02_02_02_02_02_02_02_02_02_02_02_02_02_02_02_02_02_02_02_02_02_02_02_02_02_02_02_02_02_09_09_09_09_09_09_09_00_00_09_09_09_09_09_09_09_09,
  0x09_05_04_04_0b_0b_02_02_02_04_04_04_04_04_04_04_04_04_04_04_04_04_04_04_02_02_02_02_09_09_00_00_00_00_00_00_00_00_00_00_00_00_00_00_00_00_00_00_00_00_00_00_00_00_00_00_00_00_00_00_00_00_00_00,
  0x09_04_04_02_02_00_00_00_00_00_00_00_00_00_00_00_13_13_13_13_13_13_13_13_13_13_00_00_00_00_00_00_05_05_05_05_05_05_05_05_05_05_05_05_05_00_00_00_00_00_00_00_00_00_00_00_00_00_00_00_00_00_00_00,
  0x02_02_02_02_02_02_02_02_02_02_02_02_02_02_02_02_02_02_02_02_02_02_02_02_02_02_02_02_02_02_02_02_02_02_02_02_02_02_02_02_02_02_02_09_09_09_09_09_09_09_09_09_09_09_09_09_00_00_00_00_00_00_00_00,
  0x13_13_13_13_13_13_13_13_13_13_00_00_00_00_00_00_00_00_00_00_00_00_00_00_00_00_00_00_00_00_00_00_00_00_00_00_00_00_00_00_00_00_00_00_00_00_00_00_00_00_00_00_00_00_00_00_00_00_00_00_00_00_00_00,
  0x18_18_18_18_18_18_18_18_18_18_18_18_18_18_18_18_18_18_18_18_18_18_18_18_18_18_00_00_00_18_18_18_18_18_18_18_18_18_18_18_18_18_18_18_00_00_00_00_13_13_13_13_13_13_13_13_13_13_18_18_04_04_04_18,
  0x00_00_00_00_00_00_00_00_00_00_00_00_00_00_00_00_00_00_00_00_00_00_00_00_00_00_00_00_00_00_00_00_02_02_02_02_02_02_02_02_02_02_02_02_02_02_02_02_02_02_02_02_02_02_02_02_02_02_02_02_02_02_02_02,
  0x02_02_02_02_02_02_02_02_02_02_02_02_02_02_02_02_02_02_02_02_02_02_02_02_02_02_02_02_02_02_02_02_13_13_13_13_13_13_13_13_13_13_02_02_02_02_02_02_02_02_02_00_00_00_00_00_00_00_00_00_00_00_00_02,
  0x02_09_09_09_09_09_09_09_09_09_09_02_02_02_02_02_02_02_02_02_02_02_02_02_02_02_02_02_02_02_02_02_02_02_02_02_02_02_02_02_02_02_02_02_02_02_02_02_02_02_02_09_09_09_09_09_09_09_02_09_09_09_09_05,
  0x02_04_04_04_04_05_02_09_00_00_00_00_00_00_00_00_02_09_09_09_09_09_09_09_09_09_09_09_02_02_02_02_02_02_02_02_02_02_02_02_02_02_02_02_02_02_02_02_02_02_02_02_02_02_02_02_02_02_02_02_02_02_02_02,
  0x02_02_02_02_00_00_02_02_02_02_09_09_09_09_09_09_09_09_09_09_09_09_09_09_09_09_04_04_04_00_05_05_05_04_04_00_00_00_00_00_00_00_00_00_00_00_00_00_00_00_00_00_00_00_00_00_00_00_00_00_00_00_00_00,
  0x02_02_02_02_02_02_02_02_02_02_02_02_02_02_02_02_02_02_02_02_02_02_02_02_02_02_02_02_02_02_02_02_02_02_02_02_02_02_02_02_02_02_02_02_02_02_02_02_02_02_02_02_02_02_02_02_02_00_00_00_00_00_00_00,
  0x02_02_02_02_02_02_02_02_02_00_02_02_02_02_02_02_02_02_02_02_02_02_02_02_02_02_02_02_02_02_02_02_02_02_02_02_02_02_02_02_02_02_02_02_02_02_02_09_09_09_09_09_09_09_09_00_09_09_09_09_09_09_09_09,
  0x02_04_04_04_04_04_00_00_00_00_00_00_00_00_00_00_13_13_13_13_13_13_13_13_13_13_02_02_02_02_02_02_02_02_02_02_02_02_02_02_02_02_02_02_02_00_00_00_05_0b_02_02_02_02_02_02_02_02_02_02_02_02_02_02,
  0x02_02_02_02_02_02_02_02_02_02_02_02_02_02_02_02_00_00_09_09_09_09_09_09_09_09_09_09_09_09_09_09_09_09_09_09_09_09_09_09_00_09_09_09_09_09_09_09_09_09_09_09_09_09_09_00_00_00_00_00_00_00_00_00,
  0x02_02_02_02_02_02_02_00_02_02_00_02_02_02_02_02_02_02_02_02_02_02_02_02_02_02_02_02_02_02_02_02_02_02_02_02_02_02_02_02_02_02_02_02_02_02_02_02_02_09_09_09_09_09_09_00_00_00_09_00_09_09_00_09,
  0x09_09_09_09_09_09_02_09_00_00_00_00_00_00_00_00_13_13_13_13_13_13_13_13_13_13_00_00_00_00_00_00_00_00_00_00_00_00_00_00_00_00_00_00_00_00_00_00_00_00_00_00_00_00_00_00_00_00_00_00_00_00_00_00,
  0x02_02_02_02_02_02_02_02_02_02_02_02_02_02_02_02_02_02_02_02_02_02_02_02_02_02_00_00_00_00_00_00_00_00_00_00_00_00_00_00_00_00_00_00_00_00_00_00_00_00_00_00_00_00_00_00_00_00_00_00_00_00_00_00,
  0x02_02_02_02_02_02_02_02_02_02_02_02_02_02_02_02_02_02_02_02_02_02_02_02_02_02_02_02_02_02_02_02_02_02_02_02_02_02_02_02_02_02_02_02_02_02_02_00_04_04_04_04_04_00_00_00_00_00_00_00_00_00_00_00,
  0x02_02_02_02_00_00_00_00_00_00_00_00_00_00_00_00_00_00_00_00_00_00_00_00_00_00_00_00_00_00_00_00_00_00_00_00_00_00_00_00_00_00_00_00_00_00_00_00_00_00_00_00_00_00_00_00_00_00_00_00_00_00_00_00,
  0x02_02_02_02_02_02_02_02_02_02_02_02_02_02_02_02_02_02_02_02_02_02_02_02_14_14_14_08_08_08_02_02_02_02_02_02_02_02_02_02_02_02_02_02_02_02_02_02_02_02_02_02_02_02_02_02_02_02_02_02_02_02_02_02,
  0x02_02_08_02_02_02_14_08_14_08_02_02_02_02_02_02_02_02_02_02_02_02_02_02_02_02_02_02_02_02_02_02_02_02_02_02_02_02_02_02_02_02_02_02_02_02_02_02_02_02_02_02_02_02_02_02_02_02_02_02_02_02_02_02,
  0x02_02_02_02_02_02_02_02_02_02_02_02_02_02_02_02_02_02_02_02_02_02_02_02_02_02_02_02_02_02_02_02_02_02_02_02_02_02_02_02_02_02_02_02_02_02_02_02_02_02_02_02_02_02_02_02_02_14_08_08_02_02_02_02,
  0x02_02_02_02_02_02_02_02_02_02_02_02_02_02_02_02_02_02_02_02_02_02_02_02_02_02_02_02_02_02_02_02_02_02_02_02_02_02_02_02_02_02_02_02_02_02_02_00_00_00_00_00_00_00_00_00_00_00_00_00_00_00_00_00,
  0x02_02_02_02_02_02_02_02_02_02_02_02_02_02_14_08_02_02_02_02_02_02_02_02_02_02_02_02_02_02_02_02_02_02_02_02_02_02_02_02_02_02_02_02_02_02_02_02_02_02_02_02_02_02_02_02_02_02_02_02_02_02_02_02,
  0x02_02_02_02_02_02_02_00_00_00_00_00_00_00_00_00_00_00_00_00_00_00_00_00_00_00_00_00_00_00_00_00_00_00_00_00_00_00_00_00_00_00_00_00_00_00_00_00_00_00_00_00_00_00_00_00_00_00_00_00_00_00_00_00,
  0x02_02_02_02_02_02_02_02_02_02_02_02_02_02_02_02_02_02_02_02_02_02_02_02_02_02_02_02_02_02_02_00_13_13_13_13_13_13_13_13_13_13_00_00_00_00_04_04_00_00_00_00_00_00_00_00_00_00_00_00_00_00_00_00,
  0x00_00_00_00_00_00_00_00_00_00_00_00_00_00_00_00_02_02_02_02_02_02_02_02_02_02_02_02_02_02_02_02_02_02_02_02_02_02_02_02_02_02_02_02_02_02_00_00_09_09_09_09_09_04_00_00_00_00_00_00_00_00_00_00,
  0x02_02_02_02_02_02_02_02_02_02_02_02_02_02_02_02_02_02_02_02_02_02_02_02_02_02_02_02_02_02_02_02_02_02_02_02_02_02_02_02_02_02_02_02_02_02_02_02_09_09_09_09_09_09_09_04_04_04_02_02_02_02_02_02,
  0x02_02_02_02_04_02_00_00_00_00_00_00_00_00_00_00_13_13_13_13_13_13_13_13_13_13_00_02_02_02_02_02_02_02_00_02_02_02_02_02_02_02_02_02_02_02_02_02_02_02_02_02_02_02_02_02_00_00_00_00_00_02_02_02,
  0x02_02_02_02_02_02_02_02_02_02_02_02_02_02_02_02_00_00_00_00_00_00_00_00_00_00_00_00_00_00_00_00_00_00_00_00_00_00_00_00_00_00_00_00_00_00_00_00_00_00_00_00_00_00_00_00_00_00_00_00_00_00_00_00,
  0x02_02_02_02_02_00_00_00_00_00_00_00_00_00_00_00_02_09_09_09_09_09_09_09_09_09_09_09_09_09_09_09_09_09_09_09_09_09_09_09_09_09_09_09_09_09_09_09_09_09_09_09_09_09_09_09_09_09_09_09_09_09_09_00,
  0x00_00_00_00_00_00_00_00_00_00_00_00_00_00_00_09_09_09_09_02_02_02_02_02_02_02_02_02_02_02_02_02_00_00_00_00_00_00_00_00_00_00_00_00_00_00_00_00_00_00_00_00_00_00_00_00_00_00_00_00_00_00_00_00,
  0x00_00_00_00_00_00_00_00_00_00_00_00_00_00_00_00_00_00_00_00_00_00_00_00_00_00_00_00_00_00_00_00_12_12_00_00_00_00_00_00_00_00_00_00_00_00_00_00_00_00_00_00_00_00_00_00_00_00_00_00_00_00_00_00,
  0x0e_0e_0e_0e_0e_0e_0e_0e_0e_0e_0e_0e_0e_0e_0e_0e_0e_0e_0e_0e_0e_0e_0e_0e_0e_0e_0e_0e_0e_0e_0e_0e_0e_0e_0e_0e_0e_0e_0e_0e_0e_0e_0e_0e_0e_0e_0e_0e_0e_0e_0e_0e_0e_0e_0e_0e_0e_0e_0e_0e_0e_0e_0e_0e,
  0x0e_0e_0e_0e_0e_0e_0e_0e_0e_0e_0e_0e_0e_0e_0e_0e_0e_0e_0e_0e_0e_0e_0e_0e_0e_0e_0e_0e_0e_0e_0e_0e_0e_0e_0e_0e_0e_0e_0e_0e_0e_0e_0e_0e_0e_00_00_00_00_00_00_00_00_00_00_00_00_00_00_00_00_00_00_00,
  0x0e_0e_0e_0e_0e_0e_0e_0e_0e_0e_0e_0e_0e_0e_0e_0e_0e_0e_0e_0e_0e_0e_0e_0e_0e_0e_0e_0e_0e_0e_0e_0e_0e_0e_0e_0e_0e_0e_0e_0e_0e_0e_0e_0e_0e_0e_0e_0e_0e_0e_0e_00_00_00_00_00_00_00_00_00_00_00_00_00,
  0x0e_0e_0e_0e_0e_0e_0e_0e_0e_0e_0e_0e_0e_0e_0e_0e_0e_0e_0e_0e_0e_0e_0e_0e_0e_0e_0e_0e_0e_0e_0e_00_00_00_00_00_00_00_00_00_00_00_00_00_00_00_00_00_00_00_00_00_00_00_00_00_00_00_00_00_00_00_00_00,
  0x00_00_00_00_00_00_00_00_00_00_00_00_00_00_00_00_00_00_00_00_00_00_00_00_00_00_00_00_00_00_00_00_00_00_00_00_00_00_00_00_00_00_00_00_00_00_00_00_0e_0e_0e_0e_0e_0e_0e_0e_0e_0e_0e_0e_0e_0e_0e_0e,
  0x0e_0e_0e_0e_0e_0e_0e_0e_0e_0e_0e_0e_0e_0e_0e_0e_0e_0e_0e_0e_0e_0e_0e_0e_0e_0e_0e_0e_0e_0e_0e_0e_0e_0e_0e_0e_0e_0e_0e_0e_0e_0e_0e_0e_0e_0e_0e_0e_0e_0e_0e_0e_0e_0e_0e_0e_0e_0e_0e_0e_00_00_00_00,
  0x02_02_02_02_02_02_02_02_02_02_02_02_02_02_02_02_02_02_02_02_02_02_02_02_02_02_02_02_02_02_02_02_02_02_02_02_02_02_02_02_02_02_02_00_00_00_00_00_02_02_02_02_02_02_02_02_02_02_02_02_02_00_00_00,
  0x02_02_02_02_02_02_02_02_02_00_00_00_00_00_00_00_02_02_02_02_02_02_02_02_02_02_00_00_02_09_09_04_09_09_09_09_00_00_00_00_00_00_00_00_00_00_00_00_00_00_00_00_00_00_00_00_00_00_00_00_00_00_00_00,
  0x02_02_02_02_02_02_02_02_02_02_02_02_02_02_02_02_02_02_02_02_02_02_02_02_02_02_02_02_02_02_02_02_02_02_02_02_02_02_02_02_02_02_02_02_02_02_02_02_02_02_02_02_02_02_00_00_00_00_00_00_00_00_00_00,
  0x02_02_02_02_02_02_02_02_02_02_02_02_02_02_02_02_02_02_02_02_02_02_02_02_02_02_02_02_02_02_02_02_02_02_02_02_02_02_02_00_00_02_02_02_02_02_02_02_02_02_02_02_02_02_02_02_02_02_02_02_02_02_02_02,
  0x02_02_02_02_02_02_02_02_02_02_02_02_02_02_02_02_02_02_02_02_02_02_02_02_02_02_02_02_02_02_02_02_02_02_02_02_02_09_09_09_09_09_02_02_02_09_09_09_09_09_09_09_09_09_09_09_09_09_09_09_09_09_09_09,
  0x09_09_09_02_02_09_09_09_09_09_09_09_02_02_02_02_02_02_02_02_02_02_02_02_02_02_02_02_02_02_02_02_02_02_02_02_02_02_02_02_02_02_09_09_09_09_02_02_02_02_02_02_02_02_02_02_02_02_02_02_02_02_02_02,
  0x02_02_02_02_02_02_02_02_02_02_02_02_02_02_02_02_02_02_02_02_02_02_02_02_02_02_02_02_02_02_02_02_02_02_02_02_02_02_02_02_02_00_00_00_00_00_00_00_00_00_00_00_00_00_00_00_00_00_00_00_00_00_00_00,
  0x02_02_09_09_09_02_00_00_00_00_00_00_00_00_00_00_00_00_00_00_00_00_00_00_00_00_00_00_00_00_00_00_00_00_00_00_00_00_00_00_00_00_00_00_00_00_00_00_00_00_00_00_00_00_00_00_00_00_00_00_00_00_00_00,
  0x02_02_02_02_02_02_02_02_02_02_02_02_02_02_02_02_02_02_02_02_02_02_02_00_00_00_00_00_00_00_00_00_02_02_02_02_02_02_02_02_02_02_02_02_02_02_02_02_02_02_00_00_00_00_00_00_00_00_00_00_00_00_00_00,
  0x02_02_02_02_02_02_02_02_02_02_02_02_02_02_02_02_02_02_02_02_02_00_02_02_02_02_02_02_02_02_02_02_02_02_02_02_02_02_02_02_02_02_02_02_02_02_02_02_02_02_02_02_02_02_02_02_02_02_02_02_02_02_02_02,
  0x02_02_02_02_02_02_02_02_02_02_02_02_02_02_02_02_02_02_02_02_02_02_02_02_02_02_02_02_02_00_02_02_00_00_02_00_00_02_02_00_00_02_02_02_02_00_02_02_02_02_02_02_02_02_02_02_02_02_00_02_00_02_02_02,
  0x02_02_02_02_00_02_02_02_02_02_02_02_02_02_02_02_02_02_02_02_02_02_02_02_02_02_02_02_02_02_02_02_02_02_02_02_02_02_02_02_02_02_02_02_02_02_02_02_02_02_02_02_02_02_02_02_02_02_02_02_02_02_02_02,
  0x02_02_02_02_02_02_00_02_02_02_02_00_00_02_02_02_02_02_02_02_02_00_02_02_02_02_02_02_02_00_02_02_02_02_02_02_02_02_02_02_02_02_02_02_02_02_02_02_02_02_02_02_02_02_02_02_02_02_00_02_02_02_02_00,
  0x02_02_02_02_02_00_02_00_00_00_02_02_02_02_02_02_02_00_02_02_02_02_02_02_02_02_02_02_02_02_02_02_02_02_02_02_02_02_02_02_02_02_02_02_02_02_02_02_02_02_02_02_02_02_02_02_02_02_02_02_02_02_02_02,
  0x02_02_02_02_02_02_02_02_02_02_02_02_02_02_02_02_02_02_02_02_02_02_02_02_02_02_02_02_02_02_02_02_02_02_02_02_02_02_00_00_02_02_02_02_02_02_02_02_02_02_02_02_02_02_02_02_02_02_02_02_02_02_02_02,
  0x02_02_02_02_02_02_02_02_02_02_02_02_00_00_13_13_13_13_13_13_13_13_13_13_13_13_13_13_13_13_13_13_13_13_13_13_13_13_13_13_13_13_13_13_13_13_13_13_13_13_13_13_13_13_13_13_13_13_13_13_13_13_13_13,
  0x09_09_09_09_09_09_09_09_09_09_09_09_09_09_09_09_09_09_09_09_09_09_09_09_09_09_09_09_09_09_09_09_09_09_09_09_09_09_09_09_09_09_09_09_09_09_09_09_09_09_09_09_09_09_09_02_02_02_02_09_09_09_09_09,
  0x09_09_09_09_09_09_09_09_09_09_09_09_09_09_09_09_09_09_09_09_09_09_09_09_09_09_09_09_09_09_09_09_09_09_09_09_09_09_09_09_09_09_09_09_09_02_02_02_02_02_02_02_02_09_02_02_02_02_02_02_02_02_02_02,
  0x02_02_02_02_09_02_02_04_04_04_04_02_00_00_00_00_00_00_00_00_00_00_00_00_00_00_00_09_09_09_09_09_00_09_09_09_09_09_09_09_09_09_09_09_09_09_09_09_00_00_00_00_00_00_00_00_00_00_00_00_00_00_00_00,
  0x09_09_09_09_09_09_09_00_09_09_09_09_09_09_09_09_09_09_09_09_09_09_09_09_09_00_00_09_09_09_09_09_09_09_00_09_09_00_09_09_09_09_09_00_00_00_00_00_00_00_00_00_00_00_00_00_00_00_00_00_00_00_00_00,
  0x02_02_02_02_02_00_00_02_02_02_02_02_02_02_02_02_09_09_09_09_09_09_09_00_00_00_00_00_00_00_00_00_00_00_00_00_00_00_00_00_00_00_00_00_00_00_00_00_00_00_00_00_00_00_00_00_00_00_00_00_00_00_00_00,
  0x02_02_02_02_09_09_09_09_09_09_09_00_00_00_00_00_13_13_13_13_13_13_13_13_13_13_00_00_00_00_14_14_00_00_00_00_00_00_00_00_00_00_00_00_00_00_00_00_00_00_00_00_00_00_00_00_00_00_00_00_00_00_00_00,
  0x02_02_02_02_00_02_02_02_02_02_02_02_02_02_02_02_02_02_02_02_02_02_02_02_02_02_02_02_02_02_02_02_00_02_02_00_02_00_00_02_00_02_02_02_02_02_02_02_02_02_02_00_02_02_02_02_00_02_00_02_00_00_00_00,
  0x00_00_02_00_00_00_00_02_00_02_00_02_00_02_02_02_00_02_02_00_02_00_00_02_00_02_00_02_00_02_00_02_00_02_02_00_02_00_00_02_02_02_02_00_02_02_02_02_02_02_02_00_02_02_02_02_00_02_02_02_02_00_02_00,
  0x02_02_02_02_02_02_02_02_02_02_00_02_02_02_02_02_02_02_02_02_02_02_02_02_02_02_02_02_00_00_00_00_00_02_02_02_00_02_02_02_02_02_00_02_02_02_02_02_02_02_02_02_02_02_02_02_02_02_02_02_00_00_00_00,
  0x00_00_00_00_00_00_00_00_00_00_00_00_00_00_00_00_00_00_00_00_00_00_00_00_00_00_00_00_00_00_00_00_00_00_00_00_00_00_00_00_00_00_00_00_00_00_00_00_02_02_00_00_00_00_00_00_00_00_00_00_00_00_00_00,
  0x01_01_01_01_01_01_01_01_01_01_01_01_01_0e_0e_0e_01_01_01_01_01_01_01_01_01_01_01_01_01_01_01_01_01_01_01_01_01_01_01_01_01_01_01_01_01_01_02_0e_01_01_01_01_01_01_01_01_01_01_01_01_01_01_01_01,
  0x01_01_01_01_01_01_01_01_01_01_01_01_01_01_01_01_01_01_01_01_01_01_01_01_01_01_01_01_01_01_01_01_01_01_01_01_01_01_01_01_01_01_02_02_0e_0e_0e_0e_01_01_01_01_01_01_01_01_01_01_01_01_01_01_01_01,
  0x01_01_01_01_01_01_01_01_01_01_01_01_01_01_01_01_01_01_01_01_01_01_01_01_01_01_01_01_01_01_01_01_01_01_01_01_01_01_01_01_01_01_01_01_01_0e_0e_0e_0e_0e_0e_0e_0e_0e_0e_0e_0e_0e_0e_0e_0e_0e_0e_0e,
  0x0e_0e_0e_0e_0e_0e_0e_0e_0e_0e_0e_0e_0e_0e_0e_0e_0e_0e_0e_0e_0e_0e_0e_0e_0e_0e_0e_0e_0e_0e_0e_0e_0e_0e_0e_0e_0e_0e_27_27_27_27_27_27_27_27_27_27_27_27_27_27_27_27_27_27_27_27_27_27_27_27_27_27,
  0x0e_0e_0e_0e_0e_28_0e_0e_0e_0e_0e_0e_0e_0e_0e_0e_0e_0e_0e_0e_0e_0e_0e_0e_0e_0e_0e_0e_02_02_0e_0e_0e_0e_0e_0e_0e_0e_0e_0e_0e_0e_0e_0e_0e_0e_0e_0e_0e_0e_0e_0e_0e_02_02_0e_0e_0e_0e_0e_02_0e_0e_0e,
  0x0e_0e_28_28_28_0e_0e_28_0e_0e_28_28_28_0e_0e_0e_0e_0e_0e_0e_0e_0e_0e_0e_0e_0e_0e_0e_0e_0e_0e_0e_0e_0e_0e_0e_0e_0e_0e_0e_0e_0e_0e_0e_0e_0e_0e_0e_0e_0e_0e_0e_0e_0e_0e_0e_0e_0e_0e_29_29_29_29_29,
  0x0e_0e_28_28_0e_0e_28_28_28_28_28_28_28_28_28_28_28_0e_0e_0e_0e_0e_0e_0e_0e_0e_0e_0e_0e_0e_0e_0e_0e_0e_0e_0e_0e_0e_28_28_28_28_0e_0e_0e_0e_28_0e_28_28_28_28_28_28_28_28_28_0e_0e_0e_28_0e_0e_0e,
  0x0e_28_28_28_0e_28_28_28_0e_0e_0e_0e_0e_0e_0e_0e_0e_0e_0e_0e_0e_0e_0e_0e_0e_0e_0e_0e_0e_0e_0e_0e_02_0e_02_0e_02_0e_0e_0e_0e_0e_28_0e_0e_0e_0e_02_0e_02_02_0e_0e_0e_0e_0e_0e_0e_0e_0e_0e_0e_0e_0e,
  0x02_02_02_02_02_02_02_0e_0e_0e_0e_0e_0e_0e_0e_0e_0e_0e_0e_0e_0e_0e_0e_02_02_02_02_02_02_02_02_02_02_02_02_02_02_0e_0e_0e_0e_0e_0e_0e_0e_0e_0e_0e_0e_0e_02_02_02_02_02_02_02_02_02_02_02_02_02_02,
  0x02_02_02_02_02_02_02_02_02_02_0e_0e_0e_0e_0e_0e_0e_0e_0e_0e_0e_0e_0e_0e_0e_0e_0e_0e_0e_0e_0e_0e_0e_0e_0e_0e_0e_0e_0e_0e_0e_0e_0e_0e_0e_0e_0e_0e_0e_0e_0e_0e_28_28_0e_0e_0e_0e_28_0e_0e_0e_0e_0e,
  0x0e_0e_0e_0e_0e_0e_0e_0e_0e_0e_0e_0e_0e_0e_0e_0e_28_0e_0e_0e_0e_28_28_0e_0e_0e_0e_0e_0e_0e_0e_0e_0e_0e_0e_0e_0e_0e_0e_0e_0e_0e_0e_0e_0e_0e_0e_0e_0e_0e_0e_0e_0e_0e_0e_0e_0e_0e_0e_0e_0e_0e_0e_0e,
  0x0e_0e_0e_0e_0e_0e_0e_0e_0e_0e_0e_0e_0e_0e_0e_0e_0e_0e_0e_0e_02_02_02_02_02_02_02_02_0e_0e_0e_0e_0e_0e_0e_0e_0e_0e_0e_0e_0e_0e_0e_0e_0e_0e_0e_0e_0e_0e_0e_0e_02_02_02_02_02_02_0e_0e_0e_0e_0e_0e,
  0x0e_0e_0e_0e_0e_28_28_28_0e_0e_0e_28_28_28_28_28_02_02_02_02_02_02_02_02_02_02_02_02_02_02_02_02_02_02_02_02_02_02_02_02_02_02_02_02_02_02_02_02_02_02_02_02_02_02_17_17_17_12_12_12_02_02_02_02,
  0x0e_0e_0e_0e_0e_0e_0e_0e_0e_0e_0e_0e_0e_0e_0e_0e_0e_0e_0e_0e_0e_0e_0e_0e_0e_0e_0e_0e_0e_0e_0e_0e_0e_0e_0e_28_0e_0e_0e_0e_0e_0e_0e_0e_0e_0e_0e_0e_0e_0e_0e_0e_28_28_28_0e_0e_0e_0e_0e_0e_0e_0e_0e,
  0x28_0e_0e_0e_0e_0e_0e_0e_0e_0e_0e_0e_28_0e_0e_0e_0e_0e_0e_0e_0e_0e_0e_0e_0e_0e_0e_0e_0e_0e_0e_0e_0e_0e_0e_0e_0e_0e_0e_0e_0e_0e_0e_0e_0e_0e_0e_0e_0e_0e_0e_0e_0e_0e_0e_0e_0e_0e_0e_0e_0e_0e_0e_0e,
  0x02_02_02_02_02_02_02_02_02_02_02_02_02_02_02_02_02_02_02_02_02_02_02_02_02_02_02_02_02_02_02_02_02_02_02_02_02_02_02_02_02_02_02_02_02_02_02_02_02_02_02_02_0e_0e_0e_0e_0e_0e_0e_0e_0e_0e_0e_0e,
  0x02_02_02_02_02_02_02_02_02_02_02_02_02_02_02_02_02_02_02_02_02_0e_0e_0e_0e_0e_0e_0e_0e_0e_0e_0e_0e_0e_0e_0e_0e_0e_0e_0e_0e_0e_0e_0e_0e_0e_0e_0e_0e_0e_0e_0e_0e_0e_0e_0e_0e_0e_0e_0e_0e_0e_0e_0e,
  0x02_02_02_02_02_02_02_02_02_02_02_02_0e_0e_0e_0e_02_02_02_02_02_02_02_02_02_02_02_02_02_02_02_02_02_02_02_02_02_02_02_02_02_02_02_02_02_02_02_02_02_02_02_02_02_02_02_02_02_02_02_02_02_02_02_02,
  0x02_02_02_02_02_02_02_02_0e_0e_0e_0e_0e_0e_0e_0e_02_02_02_02_02_02_02_02_02_02_0e_0e_0e_0e_0e_0e_02_02_02_02_02_02_02_02_02_02_02_02_02_02_02_02_02_02_02_02_02_02_02_02_02_02_02_02_02_02_02_02,
  0x02_02_02_02_02_02_02_02_0e_0e_0e_0e_0e_0e_0e_0e_02_02_02_02_02_02_02_02_02_02_02_02_02_02_02_02_02_02_02_02_02_02_02_02_02_02_02_02_02_02_0e_0e_0e_0e_0e_0e_0e_0e_0e_0e_0e_0e_0e_0e_0e_0e_0e_0e,
  0x02_02_02_02_02_02_02_02_02_02_02_02_0e_0e_0e_0e_0e_0e_0e_0e_0e_0e_0e_0e_28_28_28_28_28_0e_28_28_0e_0e_0e_0e_0e_0e_28_0e_0e_0e_0e_0e_0e_0e_0e_0e_28_28_28_28_28_28_28_28_28_28_0e_0e_0e_28_28_0e,
  0x0e_0e_0e_0e_0e_0e_0e_0e_0e_0e_0e_0e_0e_0e_0e_0e_0e_28_28_28_28_28_28_28_28_28_28_28_28_28_0e_0e_0e_0e_0e_0e_0e_0e_0e_0e_0e_0e_0e_0e_0e_0e_0e_0e_0e_0e_0e_0e_0e_0e_0e_0e_0e_0e_0e_0e_0e_0e_0e_0e,
  0x0e_0e_0e_0e_0e_0e_0e_0e_0e_0e_0e_0e_0e_0e_0e_0e_0e_0e_0e_0e_0e_0e_0e_0e_0e_0e_0e_0e_0e_0e_0e_0e_0e_0e_0e_0e_0e_0e_0e_0e_0e_0e_0e_0e_0e_0e_0e_0e_0e_0e_0e_0e_0e_0e_0e_0e_0e_0e_0e_0e_0e_0e_00_00,
  0x00_09_00_00_00_00_00_00_00_00_00_00_00_00_00_00_00_00_00_00_00_00_00_00_00_00_00_00_00_00_00_00_09_09_09_09_09_09_09_09_09_09_09_09_09_09_09_09_09_09_09_09_09_09_09_09_09_09_09_09_09_09_09_09,
  0x09_09_09_09_09_09_09_09_09_09_09_09_09_09_09_09_09_09_09_09_09_09_09_09_09_09_09_09_09_09_09_09_09_09_09_09_09_09_09_09_09_09_09_09_09_09_09_09_09_09_09_09_09_09_09_09_09_09_09_09_09_09_09_09,
  0x09_09_09_09_09_09_09_09_09_09_09_09_09_09_09_09_09_09_09_09_09_09_09_09_09_09_09_09_09_09_09_09_09_09_09_09_09_09_09_09_09_09_09_09_09_09_09_09_00_00_00_00_00_00_00_00_00_00_00_00_00_00_00_00]

/-- `LINEBREAK_STATE_MACHINE`, unicode/src/tables.rs:1156-1513: 3827 entries in rows of 43. -/
def lbStateMachine : List Nat := [
  0x00_01_02_83_04_85_06_87_08_00_0a_0b_0c_0d_8e_0f_10_11_12_13_14_15_16_17_18_19_2e_1b_1c_1d_1e_9f_a0_a1_a2_a3_24_25_26_a7_a8_a9_00,
  0x00_01_02_83_04_85_06_87_08_01_0a_0b_0c_0d_8e_0f_10_11_12_13_14_15_16_17_18_19_2f_1b_1c_1d_1e_9f_a0_a1_a2_a3_24_25_26_a7_a8_a9_01,
  0x00_01_02_83_04_85_06_87_08_02_0a_0b_0c_0d_8e_0f_10_11_12_13_14_15_16_17_18_19_30_1b_1c_1d_1e_9f_a0_a1_a2_a3_24_25_26_a7_a8_a9_02,
  0x80_81_82_03_04_85_06_87_08_03_0a_0b_0c_0d_8e_8f_10_11_12_93_94_95_96_17_98_99_31_1b_1c_1d_1e_9f_a0_a1_a2_a3_24_25_a6_a7_a8_a9_03,
  0x80_81_82_83_04_85_06_87_08_04_0a_0b_8c_0d_8e_8f_10_11_12_93_94_95_96_17_98_99_32_1b_1c_1d_1e_9f_a0_a1_a2_a3_24_25_a6_a7_a8_a9_04,
  0x00_01_02_03_04_05_06_87_08_05_0a_0b_0c_0d_0e_0f_10_11_12_13_14_15_16_17_18_19_33_1b_1c_1d_1e_1f_20_21_22_23_24_25_26_27_28_29_05,
  0xc0_c1_c2_c3_c4_c5_c6_c7_c8_c2_ca_cb_cc_cd_ce_cf_d0_d1_d2_d3_d4_d5_d6_d7_d8_d9_da_db_dc_dd_de_df_e0_e1_e2_e3_e4_e5_e6_e7_e8_e9_c2,
  0x80_81_82_83_84_85_06_87_08_07_0a_0b_0c_8d_8e_8f_10_11_92_93_94_95_96_17_98_99_35_1b_1c_1d_1e_9f_a0_a1_a2_a3_24_a5_a6_a7_a8_a9_07,
  0x80_81_82_83_04_85_06_87_08_08_0a_0b_0c_0d_8e_8f_10_11_12_93_94_15_96_17_98_99_36_1b_1c_1d_1e_9f_a0_a1_a2_a3_24_25_a6_a7_a8_a9_08,
  0x00_01_02_83_04_85_06_87_08_09_0a_0b_0c_0d_8e_0f_10_11_12_13_14_15_16_17_18_19_37_1b_1c_1d_1e_9f_a0_a1_a2_a3_24_25_26_a7_a8_a9_09,
  0xc0_c1_c2_c3_c4_c5_c6_c7_c8_c2_ca_cb_cc_cd_ce_cf_d0_11_d2_d3_d4_d5_d6_d7_d8_d9_da_db_dc_dd_de_df_e0_e1_e2_e3_e4_e5_e6_e7_e8_e9_c2,
  0x80_81_82_83_04_85_06_87_08_0b_0a_0b_0c_0d_8e_0f_10_11_12_93_94_95_96_17_98_99_39_1b_1c_1d_1e_9f_a0_a1_a2_a3_24_25_a6_a7_a8_a9_0b,
  0x00_01_02_03_04_05_06_07_08_0c_0a_0b_0c_0d_0e_0f_10_11_12_13_14_15_16_17_18_19_3a_1b_1c_1d_1e_1f_20_21_22_23_24_25_26_27_28_29_0c,
  0x80_81_82_83_04_85_06_87_08_0d_0a_0b_8c_0d_8e_8f_10_11_12_13_94_95_96_17_98_99_3b_1b_1c_1d_1e_9f_a0_a1_a2_a3_24_25_a6_a7_a8_a9_0d,
  0x80_81_82_83_04_85_06_87_08_0e_0a_0b_0c_0d_8e_0f_10_11_12_93_94_15_96_17_98_99_3c_1b_1c_1d_1e_9f_a0_a1_a2_a3_24_25_a6_a7_a8_a9_0e,
  0x80_81_82_83_04_85_06_87_08_0f_0a_0b_0c_0d_8e_0f_10_11_12_93_94_95_96_17_98_99_3d_1b_1c_1d_1e_9f_a0_a1_a2_a3_24_25_a6_a7_a8_a9_0f,
  0x00_01_02_83_04_85_06_87_08_10_0a_0b_0c_0d_8e_8f_10_11_12_13_94_95_96_17_18_19_3e_1b_1c_1d_1e_9f_a0_a1_a2_a3_24_25_26_a7_a8_a9_10,
  0xc0_c1_c2_c3_c4_c5_c6_c7_c8_c2_ca_cb_cc_cd_ce_cf_d0_d1_d2_d3_d4_d5_d6_d7_d8_d9_da_db_dc_dd_de_df_e0_e1_e2_e3_e4_e5_e6_e7_e8_e9_c2,
  0x80_81_82_83_04_85_06_87_08_12_0a_0b_0c_0d_8e_8f_10_11_12_93_94_95_96_17_98_99_40_1b_1c_1d_1e_9f_a0_a1_a2_a3_24_25_a6_a7_a8_a9_12,
  0x00_01_02_83_04_85_06_87_08_13_0a_0b_0c_0d_8e_0f_10_11_12_13_14_15_16_17_18_19_41_1b_1c_1d_1e_9f_a0_a1_a2_a3_24_25_26_a7_a8_a9_13,
  0x00_01_02_03_04_05_06_07_08_14_0a_0b_0c_0d_0e_0f_10_11_12_13_14_15_16_17_18_19_42_1b_1c_1d_1e_1f_20_21_22_23_24_25_26_27_28_29_14,
  0x00_01_02_83_04_85_06_87_08_15_0a_0b_0c_0d_8e_8f_10_11_12_13_14_95_96_17_18_19_43_1b_1c_1d_1e_9f_a0_a1_a2_a3_24_25_26_a7_a8_a9_15,
  0x00_01_02_83_04_85_06_87_08_16_0a_0b_0c_0d_0e_8f_10_11_12_13_14_95_96_17_18_19_44_1b_1c_1d_1e_1f_20_21_22_23_24_25_26_a7_28_29_16,
  0x00_01_02_03_04_05_06_07_08_17_0a_0b_0c_0d_0e_0f_10_11_12_13_14_15_16_17_18_19_45_1b_1c_1d_1e_1f_20_21_22_23_24_25_26_27_28_29_17,
  0x00_01_02_83_04_85_06_87_08_18_0a_0b_0c_0d_8e_0f_10_11_12_13_14_15_16_17_18_19_46_1b_1c_1d_1e_9f_a0_a1_a2_a3_24_25_26_a7_a8_a9_18,
  0x00_01_02_83_04_85_06_87_08_19_0a_0b_0c_0d_8e_0f_10_11_12_13_14_15_16_17_18_19_47_1b_1c_1d_1e_9f_a0_a1_a2_a3_24_25_26_a7_a8_a9_19,
  0x80_81_82_83_84_85_06_87_08_82_0a_0b_8c_8d_8e_8f_10_11_92_93_94_95_96_97_98_99_48_1b_1c_1d_1e_9f_a0_a1_a2_a3_24_a5_a6_a7_a8_a9_82,
  0x80_81_82_83_04_85_06_87_08_1b_0a_0b_0c_0d_8e_8f_10_11_12_13_94_95_96_17_98_99_49_1b_1c_1d_1e_9f_a0_a1_a2_a3_24_25_26_a7_a8_a9_1b,
  0x80_81_82_83_84_85_06_87_88_82_0a_8b_8c_8d_8e_8f_90_11_92_93_94_95_96_97_98_99_4a_9b_1c_1d_9e_9f_a0_a1_a2_a3_a4_a5_a6_a7_a8_a9_82,
  0xc0_c1_c2_c3_c4_c5_c6_c7_c8_c2_ca_cb_cc_cd_ce_cf_d0_d1_d2_d3_d4_d5_d6_d7_d8_d9_da_db_dc_dd_de_df_e0_e1_e2_e3_e4_e5_e6_e7_e8_e9_c2,
  0x00_01_02_03_04_05_06_07_08_1e_0a_0b_0c_0d_0e_0f_10_11_12_13_14_15_16_17_18_19_4c_1b_1c_1d_1e_1f_20_21_22_23_24_25_26_27_28_29_1e,
  0x80_81_82_83_04_85_06_87_08_1f_0a_0b_0c_0d_8e_0f_10_11_12_93_94_15_96_17_98_99_4d_1b_1c_1d_1e_9f_a0_a1_22_23_24_25_a6_a7_a8_a9_1f,
  0x80_81_82_83_04_85_06_87_08_20_0a_0b_0c_0d_8e_0f_10_11_12_93_94_15_96_17_98_99_4e_1b_1c_1d_1e_9f_a0_a1_22_a3_24_25_a6_a7_a8_a9_20,
  0x80_81_82_83_04_85_06_87_08_21_0a_0b_0c_0d_8e_0f_10_11_12_93_94_15_96_17_98_99_4f_1b_1c_1d_1e_1f_20_21_a2_23_24_25_a6_a7_a8_a9_21,
  0x80_81_82_83_04_85_06_87_08_22_0a_0b_0c_0d_8e_0f_10_11_12_93_94_15_96_17_98_99_50_1b_1c_1d_1e_9f_a0_a1_22_a3_24_25_a6_a7_a8_a9_22,
  0x80_81_82_83_04_85_06_87_08_23_0a_0b_0c_0d_8e_0f_10_11_12_93_94_15_96_17_98_99_51_1b_1c_1d_1e_9f_a0_a1_22_23_24_25_a6_a7_a8_a9_23,
  0x00_01_02_83_04_85_06_87_08_24_0a_0b_0c_0d_8e_8f_10_11_12_13_94_15_16_17_18_19_52_1b_1c_1d_1e_9f_a0_a1_a2_a3_24_25_26_a7_a8_a9_24,
  0x80_81_82_83_04_85_06_87_08_25_0a_0b_0c_0d_8e_8f_10_11_12_93_94_95_96_17_98_99_53_1b_1c_1d_1e_9f_a0_a1_a2_a3_24_25_a6_a7_a8_a9_25,
  0x00_01_02_83_2c_85_06_87_08_26_0a_0b_0c_2b_8e_0f_10_11_12_13_14_15_16_17_18_19_54_1b_1c_1d_1e_9f_a0_a1_a2_a3_24_25_26_a7_a8_a9_26,
  0x80_81_82_83_04_85_06_87_08_27_0a_0b_0c_0d_8e_8f_10_11_12_93_94_95_96_17_98_99_55_1b_1c_1d_1e_9f_a0_a1_a2_a3_24_25_a6_2d_a8_a9_27,
  0x80_81_82_83_04_85_06_87_08_28_0a_0b_0c_0d_8e_0f_10_11_12_93_94_15_96_17_98_99_56_1b_1c_1d_1e_9f_a0_a1_a2_a3_24_25_a6_a7_a8_29_28,
  0x80_81_82_83_04_85_06_87_08_29_0a_0b_0c_0d_8e_0f_10_11_12_93_94_15_96_17_98_99_57_1b_1c_1d_1e_9f_a0_a1_a2_a3_24_25_a6_a7_a8_a9_29,
  0x00_01_02_83_04_85_06_87_08_02_0a_0b_0c_0d_0e_0f_10_11_12_13_14_15_16_17_18_19_58_1b_1c_1d_1e_9f_a0_a1_a2_a3_24_25_26_a7_28_29_02,
  0x00_01_02_03_04_05_06_87_08_2b_0a_0b_0c_0d_0e_0f_10_11_12_13_14_15_16_17_18_19_2b_1b_1c_1d_1e_1f_20_21_22_23_24_25_26_27_28_29_2b,
  0x00_01_02_03_04_05_06_87_08_2c_0a_0b_0c_0d_0e_0f_10_11_12_13_14_15_16_17_18_19_2c_1b_1c_1d_1e_1f_20_21_22_23_24_25_26_27_28_29_2c,
  0x80_81_82_83_04_85_06_87_08_2d_0a_0b_8c_0d_8e_8f_10_11_12_93_94_95_96_17_98_99_2d_1b_1c_1d_1e_9f_a0_a1_a2_a3_24_25_a6_a7_a8_a9_2d,
  0x80_81_82_83_84_85_06_87_08_89_0a_0b_8c_8d_8e_8f_10_11_92_93_94_95_96_97_98_99_1a_1b_1c_1d_1e_9f_a0_a1_a2_a3_24_a5_a6_a7_a8_a9_aa,
  0x80_81_82_83_84_85_06_87_08_89_0a_0b_8c_8d_8e_8f_10_11_92_93_94_95_96_97_98_99_1a_1b_1c_1d_1e_9f_a0_a1_a2_a3_24_a5_a6_a7_a8_a9_aa,
  0x80_81_82_83_84_85_06_87_08_89_0a_0b_8c_8d_8e_8f_10_11_92_93_94_95_96_97_98_99_1a_1b_1c_1d_1e_9f_a0_a1_a2_a3_24_a5_a6_a7_a8_a9_aa,
  0x80_81_82_03_84_85_06_87_08_89_0a_0b_8c_8d_8e_8f_10_11_92_93_94_95_96_97_98_99_1a_1b_1c_1d_1e_9f_a0_a1_a2_a3_24_a5_a6_a7_a8_a9_aa,
  0x80_81_82_83_84_85_06_87_08_89_0a_0b_8c_8d_8e_8f_10_11_92_93_94_95_96_97_98_99_1a_1b_1c_1d_1e_9f_a0_a1_a2_a3_24_a5_a6_a7_a8_a9_aa,
  0x80_81_82_83_84_85_06_87_08_89_0a_0b_8c_8d_8e_8f_10_11_92_93_94_95_96_97_98_99_1a_1b_1c_1d_1e_9f_a0_a1_a2_a3_24_a5_a6_a7_a8_a9_aa,
  0x80_81_82_83_84_85_06_87_08_82_0a_0b_8c_8d_8e_8f_10_11_92_93_94_95_96_97_98_99_1a_1b_1c_1d_1e_9f_a0_a1_a2_a3_24_a5_a6_a7_a8_a9_82,
  0x80_81_82_83_84_85_06_87_08_89_0a_0b_8c_8d_8e_8f_10_11_92_93_94_95_96_97_98_99_1a_1b_1c_1d_1e_9f_a0_a1_a2_a3_24_a5_a6_a7_a8_a9_aa,
  0x80_81_82_83_84_85_06_87_08_89_0a_0b_8c_8d_8e_8f_10_11_12_93_94_95_96_97_98_99_1a_1b_1c_1d_1e_9f_a0_a1_a2_a3_24_25_a6_a7_a8_a9_aa,
  0x80_81_82_83_84_85_06_87_08_89_0a_0b_8c_8d_8e_8f_10_11_92_93_94_95_96_97_98_99_1a_1b_1c_1d_1e_9f_a0_a1_a2_a3_24_a5_a6_a7_a8_a9_aa,
  0x80_81_82_83_84_85_06_87_08_82_0a_0b_8c_8d_8e_8f_10_11_92_93_94_95_96_97_98_99_1a_1b_1c_1d_1e_9f_a0_a1_a2_a3_24_a5_a6_a7_a8_a9_82,
  0x80_81_82_83_84_85_06_87_08_89_0a_0b_8c_8d_8e_8f_10_11_92_93_94_95_96_97_98_99_1a_1b_1c_1d_1e_9f_a0_a1_a2_a3_24_a5_a6_a7_a8_a9_aa,
  0x80_81_82_83_84_85_06_87_08_89_0a_0b_8c_8d_8e_8f_10_11_92_93_94_95_96_97_98_99_1a_1b_1c_1d_1e_9f_a0_a1_a2_a3_24_a5_a6_a7_a8_a9_aa,
  0x80_81_82_83_84_85_06_87_08_89_0a_0b_8c_8d_8e_8f_10_11_92_93_94_95_96_97_98_99_1a_1b_1c_1d_1e_9f_a0_a1_a2_a3_24_a5_a6_a7_a8_a9_aa,
  0x80_81_82_83_84_85_06_87_08_89_0a_0b_8c_8d_8e_8f_10_11_92_93_94_95_96_97_98_99_1a_1b_1c_1d_1e_9f_a0_a1_a2_a3_24_a5_a6_a7_a8_a9_aa,
  0x80_81_82_83_84_85_06_87_08_89_0a_0b_8c_8d_8e_8f_10_11_92_93_94_95_96_97_98_99_1a_1b_1c_1d_1e_9f_a0_a1_a2_a3_24_a5_a6_a7_a8_a9_aa,
  0x80_81_82_83_84_85_06_87_08_89_0a_0b_8c_8d_8e_8f_10_11_92_93_94_95_96_97_98_99_1a_1b_1c_1d_1e_9f_a0_a1_a2_a3_24_a5_a6_a7_a8_a9_aa,
  0x80_81_82_83_84_85_06_87_08_82_0a_0b_8c_8d_8e_8f_10_11_92_93_94_95_96_97_98_99_1a_1b_1c_1d_1e_9f_a0_a1_a2_a3_24_a5_a6_a7_a8_a9_82,
  0x80_81_82_83_84_85_06_87_08_89_0a_0b_8c_8d_8e_8f_10_11_92_93_94_95_96_97_98_99_1a_1b_1c_1d_1e_9f_a0_a1_a2_a3_24_a5_a6_a7_a8_a9_aa,
  0x80_81_82_83_84_85_06_87_08_89_0a_0b_8c_8d_8e_8f_10_11_92_93_94_95_96_97_98_99_1a_1b_1c_1d_1e_9f_a0_a1_a2_a3_24_a5_a6_a7_a8_a9_aa,
  0x00_01_02_03_04_05_06_07_08_09_0a_0b_0c_0d_0e_0f_10_11_12_13_14_15_16_17_18_19_1a_1b_1c_1d_1e_1f_20_21_22_23_24_25_26_27_28_29_2a,
  0x80_81_82_83_84_85_06_87_08_89_0a_0b_8c_8d_8e_8f_10_11_92_93_94_95_96_97_98_99_1a_1b_1c_1d_1e_9f_a0_a1_a2_a3_24_a5_a6_a7_a8_a9_aa,
  0x80_81_82_83_84_85_06_87_08_89_0a_0b_8c_8d_8e_8f_10_11_92_93_94_95_96_97_98_99_1a_1b_1c_1d_1e_9f_a0_a1_a2_a3_24_a5_a6_a7_a8_a9_aa,
  0x80_81_82_83_84_85_06_87_08_89_0a_0b_8c_8d_8e_8f_10_11_92_93_14_95_96_97_98_99_1a_1b_1c_1d_1e_9f_a0_a1_a2_a3_24_a5_a6_a7_a8_a9_aa,
  0x80_81_82_83_84_85_06_87_08_89_0a_0b_8c_8d_8e_8f_10_11_92_93_94_95_96_97_98_99_1a_1b_1c_1d_1e_9f_a0_a1_a2_a3_24_a5_a6_a7_a8_a9_aa,
  0x80_81_82_83_84_85_06_87_08_89_0a_0b_8c_8d_8e_8f_10_11_92_93_94_95_96_97_98_99_1a_1b_1c_1d_1e_9f_a0_a1_a2_a3_24_a5_a6_a7_a8_a9_aa,
  0x80_81_82_83_84_85_06_87_08_82_0a_0b_8c_8d_8e_8f_10_11_92_93_94_95_96_97_98_99_1a_1b_1c_1d_1e_9f_a0_a1_a2_a3_24_a5_a6_a7_a8_a9_82,
  0x80_81_82_83_84_85_06_87_08_89_0a_0b_8c_8d_8e_8f_10_11_92_93_94_95_96_97_98_99_1a_1b_1c_1d_1e_9f_a0_a1_a2_a3_24_a5_a6_a7_a8_a9_aa,
  0x80_81_82_83_84_85_06_87_88_82_0a_8b_8c_8d_8e_8f_90_11_92_93_94_95_96_97_98_99_1a_9b_1c_1d_9e_9f_a0_a1_a2_a3_a4_a5_a6_a7_a8_a9_82,
  0x80_81_82_83_84_85_06_87_08_82_0a_0b_8c_8d_8e_8f_10_11_92_93_94_95_96_97_98_99_1a_1b_1c_1d_1e_9f_a0_a1_a2_a3_24_a5_a6_a7_a8_a9_82,
  0x80_81_82_83_84_85_06_87_08_89_0a_0b_8c_8d_8e_8f_10_11_92_93_94_95_96_97_98_99_1a_1b_1c_1d_1e_9f_a0_a1_a2_a3_24_a5_a6_a7_a8_a9_aa,
  0x80_81_82_83_84_85_06_87_08_89_0a_0b_8c_8d_8e_8f_10_11_92_93_94_95_96_97_98_99_1a_1b_1c_1d_1e_9f_a0_a1_a2_a3_24_a5_a6_a7_a8_a9_aa,
  0x80_81_82_83_84_85_06_87_08_89_0a_0b_8c_8d_8e_8f_10_11_92_93_94_95_96_97_98_99_1a_1b_1c_1d_1e_9f_a0_a1_a2_a3_24_a5_a6_a7_a8_a9_aa,
  0x80_81_82_83_84_85_06_87_08_89_0a_0b_8c_8d_8e_8f_10_11_92_93_94_95_96_97_98_99_1a_1b_1c_1d_1e_9f_a0_a1_a2_a3_24_a5_a6_a7_a8_a9_aa,
  0x80_81_82_83_84_85_06_87_08_89_0a_0b_8c_8d_8e_8f_10_11_92_93_94_95_96_97_98_99_1a_1b_1c_1d_1e_9f_a0_a1_a2_a3_24_a5_a6_a7_a8_a9_aa,
  0x80_81_82_83_84_85_06_87_08_89_0a_0b_8c_8d_8e_8f_10_11_92_93_94_95_96_97_98_99_1a_1b_1c_1d_1e_9f_a0_a1_a2_a3_24_a5_a6_a7_a8_a9_aa,
  0x80_81_82_83_84_85_06_87_08_89_0a_0b_8c_8d_8e_8f_10_11_12_93_94_95_96_97_98_99_1a_1b_1c_1d_1e_9f_a0_a1_a2_a3_24_25_a6_a7_a8_a9_aa,
  0x80_81_82_83_84_85_06_87_08_89_0a_0b_8c_8d_8e_8f_10_11_92_93_94_95_96_97_98_99_1a_1b_1c_1d_1e_9f_a0_a1_a2_a3_24_a5_a6_a7_a8_a9_aa,
  0x80_81_82_83_84_85_06_87_08_89_0a_0b_8c_8d_8e_8f_10_11_92_93_94_95_96_97_98_99_1a_1b_1c_1d_1e_9f_a0_a1_a2_a3_24_a5_a6_a7_a8_a9_aa,
  0x80_81_82_83_84_85_06_87_08_89_0a_0b_8c_8d_8e_8f_10_11_92_93_94_95_96_97_98_99_1a_1b_1c_1d_1e_9f_a0_a1_a2_a3_24_a5_a6_a7_a8_a9_aa,
  0x80_81_82_83_84_85_06_87_08_89_0a_0b_8c_8d_8e_8f_10_11_92_93_94_95_96_97_98_99_1a_1b_1c_1d_1e_9f_a0_a1_a2_a3_24_a5_a6_a7_a8_a9_aa,
  0x80_81_82_83_84_85_06_87_08_89_0a_0b_8c_8d_8e_8f_10_11_92_93_94_95_96_97_98_99_1a_1b_1c_1d_1e_9f_a0_a1_a2_a3_24_a5_a6_a7_a8_a9_aa,
  0x80_81_82_83_84_85_06_87_08_89_0a_0b_8c_8d_8e_8f_10_11_92_93_94_95_96_97_98_99_1a_1b_1c_1d_1e_9f_a0_a1_a2_a3_24_a5_a6_a7_a8_a9_aa]

/-- `N_LINEBREAK_CATEGORIES`, unicode/src/tables.rs:1153. -/
def nCategories : Nat := 43

end Unicode

end Xi
