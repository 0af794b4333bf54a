import Verif.Common
/-!
# Library of configurations of CRC (hwtLib/logic/crcPoly.py)

The registers are lists of bits, the highest first.
-/
namespace Verif.CrcTab

/-- crcPoly.py:22-31; CHECK and RESIDUE are attributes of some of the classes -/
structure Cfg where
  name : String
  width : Nat
  poly : Nat
  init : Nat := 0
  refin : Bool := false
  refout : Bool := false
  xorout : Nat := 0
  check : Option Nat := none
  residue : Option Nat := none

/-- the lowest `w` bits of a number, the highest first -/
def bits : Nat → Nat → List Bool
  | 0, _ => []
  | w + 1, n => n.testBit w :: bits w n

/-- number with the bits, the highest first -/
def num : List Bool → Nat
  | [] => 0
  | b :: l => (if b then 2 ^ l.length else 0) + num l

def xor : List Bool → List Bool → List Bool := List.zipWith (· ^^ ·)

/-- One bit of a message (definition of CRC in crcPoly.py:5-18 and the catalogue it refers to): the register is
shifted to the left, POLY is xored if the bit which was shifted out differs from the bit of the message -/
def step (poly reg : List Bool) (b : Bool) : List Bool :=
  match reg with
  | [] => []
  | t :: r => if t ^^ b then xor (r ++ [false]) poly else r ++ [false]

def feed (poly : List Bool) : List Bool → List Bool → List Bool := List.foldl (step poly)

def Cfg.polyBits (c : Cfg) : List Bool := bits c.width c.poly

/-- bits of a message in the order of processing: crcPoly.py:8 -/
def Cfg.msgBits (c : Cfg) (bytes : List Nat) : List Bool :=
  bytes.flatMap fun b => if c.refin then (bits 8 b).reverse else bits 8 b

/-- the register after a message -/
def Cfg.reg (c : Cfg) (m : List Bool) : List Bool := feed c.polyBits (bits c.width c.init) m

/-- crcPoly.py:9-15: the official checksum -/
def Cfg.crc (c : Cfg) (m : List Bool) : List Bool :=
  xor (if c.refout then (c.reg m).reverse else c.reg m) (bits c.width c.xorout)

/-- the checksum in the order of transmission, which is the one of the bits of the message -/
def Cfg.sent (c : Cfg) (m : List Bool) : List Bool := if c.refout then (c.crc m).reverse else c.crc m

/-- crcPoly.py:34-39 -/
def crc_1 : Cfg :=
  { name := "CRC_1", width := 1, poly := 0x1 }

/-- crcPoly.py:42-49 -/
def crc_3_gsm : Cfg :=
  { name := "CRC_3_GSM", width := 3, poly := 0x3, xorout := 0x7 }

/-- crcPoly.py:52-60 -/
def crc3_rohc : Cfg :=
  { name := "CRC3_ROHC", width := 3, poly := 0x3, init := 0x7, refin := true, refout := true, check := some 0x6, residue := some 0x0 }

/-- crcPoly.py:63-72 -/
def crc_4_itu : Cfg :=
  { name := "CRC_4_ITU", width := 4, poly := 0x3, refin := true, refout := true, check := some 0x7, residue := some 0x0 }

/-- crcPoly.py:75-82 -/
def crc_5_epc : Cfg :=
  { name := "CRC_5_EPC", width := 5, poly := 0x9, check := some 0x0, residue := some 0x0 }

/-- crcPoly.py:85-90 -/
def crc_5_itu : Cfg :=
  { name := "CRC_5_ITU", width := 5, poly := 0x15 }

/-- crcPoly.py:93-104 -/
def crc_5_usb : Cfg :=
  { name := "CRC_5_USB", width := 5, poly := 0x5, init := 0x1f, refin := true, refout := true, xorout := 0x1f, check := some 0x19, residue := some 0xc }

/-- crcPoly.py:107-110 -/
def crc_6_cdma2000_a : Cfg :=
  { name := "CRC_6_CDMA2000_A", width := 6, poly := 0x27 }

/-- crcPoly.py:113-116 -/
def crc_6_cdma2000_b : Cfg :=
  { name := "CRC_6_CDMA2000_B", width := 6, poly := 0x7 }

/-- crcPoly.py:119-122 -/
def crc_6_darc : Cfg :=
  { name := "CRC_6_DARC", width := 6, poly := 0x19 }

/-- crcPoly.py:125-128 -/
def crc_6_gsm : Cfg :=
  { name := "CRC_6_GSM", width := 6, poly := 0x2f }

/-- crcPoly.py:131-134 -/
def crc_6_itu : Cfg :=
  { name := "CRC_6_ITU", width := 6, poly := 0x3 }

/-- crcPoly.py:137-140 -/
def crc_7 : Cfg :=
  { name := "CRC_7", width := 7, poly := 0x9 }

/-- crcPoly.py:143-146 -/
def crc_7_mvb : Cfg :=
  { name := "CRC_7_MVB", width := 7, poly := 0x65 }

/-- crcPoly.py:149-152 -/
def crc_8 : Cfg :=
  { name := "CRC_8", width := 8, poly := 0xd5 }

/-- crcPoly.py:155-158 -/
def crc_8_autosar : Cfg :=
  { name := "CRC_8_AUTOSAR", width := 8, poly := 0x2f }

/-- crcPoly.py:161-164 -/
def crc_8_bluetooth : Cfg :=
  { name := "CRC_8_Bluetooth", width := 8, poly := 0xa7 }

/-- crcPoly.py:167-172 -/
def crc_8_ccitt : Cfg :=
  { name := "CRC_8_CCITT", width := 8, poly := 0x7, check := some 0xf4, residue := some 0x0 }

/-- crcPoly.py:175-178 -/
def crc_8_dallas_maxim : Cfg :=
  { name := "CRC_8_Dallas_Maxim", width := 8, poly := 0x31 }

/-- crcPoly.py:181-184 -/
def crc_8_darc : Cfg :=
  { name := "CRC_8_DARC", width := 8, poly := 0x39 }

/-- crcPoly.py:187-190 -/
def crc_8_gsm_b : Cfg :=
  { name := "CRC_8_GSM_B", width := 8, poly := 0x49 }

/-- crcPoly.py:193-196 -/
def crc_8_sae_j1850 : Cfg :=
  { name := "CRC_8_SAE_J1850", width := 8, poly := 0x1d }

/-- crcPoly.py:199-207 -/
def crc_8_wcdma : Cfg :=
  { name := "CRC_8_WCDMA", width := 8, poly := 0x9b, refin := true, refout := true, check := some 0x25, residue := some 0x0 }

/-- crcPoly.py:210-213 -/
def crc_10 : Cfg :=
  { name := "CRC_10", width := 10, poly := 0x233 }

/-- crcPoly.py:216-219 -/
def crc_10_cdma2000 : Cfg :=
  { name := "CRC_10_CDMA2000", width := 10, poly := 0x3d9 }

/-- crcPoly.py:222-225 -/
def crc_10_gsm : Cfg :=
  { name := "CRC_10_GSM", width := 10, poly := 0x175 }

/-- crcPoly.py:228-231 -/
def crc_11 : Cfg :=
  { name := "CRC_11", width := 11, poly := 0x385 }

/-- crcPoly.py:234-237 -/
def crc_12 : Cfg :=
  { name := "CRC_12", width := 12, poly := 0x80f }

/-- crcPoly.py:240-243 -/
def crc_12_cdma2000 : Cfg :=
  { name := "CRC_12_CDMA2000", width := 12, poly := 0xf13 }

/-- crcPoly.py:246-249 -/
def crc_12_gsm : Cfg :=
  { name := "CRC_12_GSM", width := 12, poly := 0xd31 }

/-- crcPoly.py:252-255 -/
def crc_13_bbc : Cfg :=
  { name := "CRC_13_BBC", width := 13, poly := 0x1cf5 }

/-- crcPoly.py:258-261 -/
def crc_14_darc : Cfg :=
  { name := "CRC_14_DARC", width := 14, poly := 0x805 }

/-- crcPoly.py:264-267 -/
def crc_14_gsm : Cfg :=
  { name := "CRC_14_GSM", width := 14, poly := 0x202d }

/-- crcPoly.py:270-272 -/
def crc_15_can : Cfg :=
  { name := "CRC_15_CAN", width := 15, poly := 0x4599 }

/-- crcPoly.py:275-277 -/
def crc_15_mpt1327 : Cfg :=
  { name := "CRC_15_MPT1327", width := 15, poly := 0x6815 }

/-- crcPoly.py:280-283 -/
def crc_16_chakravarty : Cfg :=
  { name := "CRC_16_Chakravarty", width := 16, poly := 0x2f15 }

/-- crcPoly.py:286-289 -/
def crc_16_arinc : Cfg :=
  { name := "CRC_16_ARINC", width := 16, poly := 0xa02b }

/-- crcPoly.py:292-299 -/
def crc_16_ccitt : Cfg :=
  { name := "CRC_16_CCITT", width := 16, poly := 0x1021, init := 0xffff }

/-- crcPoly.py:302-305 -/
def crc_16_cdma2000 : Cfg :=
  { name := "CRC_16_CDMA2000", width := 16, poly := 0xc867 }

/-- crcPoly.py:308-311 -/
def crc_16_dect : Cfg :=
  { name := "CRC_16_DECT", width := 16, poly := 0x589 }

/-- crcPoly.py:314-317 -/
def crc_16_t10_dif : Cfg :=
  { name := "CRC_16_T10_DIF", width := 16, poly := 0x8bb7 }

/-- crcPoly.py:320-323 -/
def crc_16_dnp : Cfg :=
  { name := "CRC_16_DNP", width := 16, poly := 0x3d65 }

/-- crcPoly.py:326-334 -/
def crc_16_ibm : Cfg :=
  { name := "CRC_16_IBM", width := 16, poly := 0x8005, refin := true, refout := true }

/-- crcPoly.py:336-344 -/
def crc_16_usb : Cfg :=
  { name := "CRC_16_USB", width := 16, poly := 0x8005, init := 0xffff, refin := true, refout := true, xorout := 0xffff, check := some 0xb4c8, residue := some 0xb001 }

/-- crcPoly.py:346-349 -/
def crc_16_opensafety_a : Cfg :=
  { name := "CRC_16_OpenSafety_A", width := 16, poly := 0x5935 }

/-- crcPoly.py:352-355 -/
def crc_16_opensafety_b : Cfg :=
  { name := "CRC_16_OpenSafety_B", width := 16, poly := 0x755b }

/-- crcPoly.py:358-361 -/
def crc_16_profibus : Cfg :=
  { name := "CRC_16_Profibus", width := 16, poly := 0x1dcf }

/-- crcPoly.py:364-367 -/
def crc_17_can : Cfg :=
  { name := "CRC_17_CAN", width := 17, poly := 0x1685b }

/-- crcPoly.py:370-373 -/
def crc_21_can : Cfg :=
  { name := "CRC_21_CAN", width := 21, poly := 0x102899 }

/-- crcPoly.py:376-379 -/
def crc_24 : Cfg :=
  { name := "CRC_24", width := 24, poly := 0x5d6dcb }

/-- crcPoly.py:382-385 -/
def crc_24_radix_64 : Cfg :=
  { name := "CRC_24_Radix_64", width := 24, poly := 0x864cfb }

/-- crcPoly.py:388-391 -/
def crc_30 : Cfg :=
  { name := "CRC_30", width := 30, poly := 0x2030b9c7 }

/-- crcPoly.py:394-405 -/
def crc_32 : Cfg :=
  { name := "CRC_32", width := 32, poly := 0x4c11db7, init := 0xffffffff, refin := true, refout := true, xorout := 0xffffffff, residue := some 0xc704dd7b }

/-- crcPoly.py:408-417 -/
def crc_32c : Cfg :=
  { name := "CRC_32C", width := 32, poly := 0x1edc6f41, init := 0xffffffff, refin := true, refout := true, xorout := 0xffffffff, check := some 0xe3069283, residue := some 0xb798b438 }

/-- crcPoly.py:420-423 -/
def crc_32k : Cfg :=
  { name := "CRC_32K", width := 32, poly := 0x741b8cd7 }

/-- crcPoly.py:426-429 -/
def crc_32k_2 : Cfg :=
  { name := "CRC_32K_2", width := 32, poly := 0x32583499 }

/-- crcPoly.py:432-435 -/
def crc_32q : Cfg :=
  { name := "CRC_32Q", width := 32, poly := 0x814141ab }

/-- crcPoly.py:438-441 -/
def crc_40_gsm : Cfg :=
  { name := "CRC_40_GSM", width := 40, poly := 0x4820009 }

/-- crcPoly.py:444-447 -/
def crc_64_ecma : Cfg :=
  { name := "CRC_64_ECMA", width := 64, poly := 0x42f0e1eba9ea3693 }

/-- crcPoly.py:450-453 -/
def crc_64_iso : Cfg :=
  { name := "CRC_64_ISO", width := 64, poly := 0x1b }

/-- all configurations -/
def table : List Cfg :=
  [crc_1, crc_3_gsm, crc3_rohc, crc_4_itu, crc_5_epc, crc_5_itu, crc_5_usb, crc_6_cdma2000_a,
   crc_6_cdma2000_b, crc_6_darc, crc_6_gsm, crc_6_itu, crc_7, crc_7_mvb, crc_8, crc_8_autosar,
   crc_8_bluetooth, crc_8_ccitt, crc_8_dallas_maxim, crc_8_darc, crc_8_gsm_b, crc_8_sae_j1850, crc_8_wcdma,
   crc_10, crc_10_cdma2000, crc_10_gsm, crc_11, crc_12, crc_12_cdma2000, crc_12_gsm, crc_13_bbc, crc_14_darc,
   crc_14_gsm, crc_15_can, crc_15_mpt1327, crc_16_chakravarty, crc_16_arinc, crc_16_ccitt, crc_16_cdma2000,
   crc_16_dect, crc_16_t10_dif, crc_16_dnp, crc_16_ibm, crc_16_usb, crc_16_opensafety_a, crc_16_opensafety_b,
   crc_16_profibus, crc_17_can, crc_21_can, crc_24, crc_24_radix_64, crc_30, crc_32, crc_32c, crc_32k,
   crc_32k_2, crc_32q, crc_40_gsm, crc_64_ecma, crc_64_iso]

end Verif.CrcTab
