import Verif.Model.XcvrReg
/-!
Presets of the transceivers: tables of utils/xcvr_gthe3.c, xcvr_gthe4.c, xcvr_gtye3.c and xcvr_gtye4.c, with the register numbers, masks and shifts of
utils/include/gt/*_regs.h, and the order in which they are loaded. Resets, clock selection and the equaliser mode, set beside the tables by registers numbered from 0x10000 on, are left out.
-/
namespace Corundum.XcvrReg

/-- `gthe3_ch_preset_10g_dfe_regs`, utils/xcvr_gthe3.c:304-323 -/
def gthe310gDfe : List RegVal :=
  [⟨0xbc, 0xffff, 0, 0x5007⟩, ⟨0x36, 0xffff, 0, 0x2⟩, ⟨0x9d, 0x18, 3, 0x0⟩, ⟨0x9d, 0xc000, 14, 0x0⟩,
   ⟨0x9d, 0x3000, 12, 0x0⟩, ⟨0x9d, 0xc00, 10, 0x0⟩, ⟨0x9d, 0xe0, 5, 0x0⟩, ⟨0x52, 0x1c, 2, 0x4⟩, ⟨0x9b, 0xe0, 5, 0x4⟩,
   ⟨0x8c, 0xe0, 5, 0x4⟩, ⟨0x62, 0x1e00, 9, 0x0⟩, ⟨0x62, 0x180, 7, 0x0⟩, ⟨0x9c, 0x1800, 11, 0x0⟩, ⟨0x9c, 0x600, 9, 0x0⟩,
   ⟨0x9c, 0x180, 7, 0x0⟩, ⟨0x9c, 0x40, 6, 0x1⟩, ⟨0x9c, 0x1c, 2, 0x0⟩, ⟨0x0, 0x0, 0, 0x0⟩]

/-- `gthe3_ch_preset_10g_lpm_regs`, utils/xcvr_gthe3.c:325-344 -/
def gthe310gLpm : List RegVal :=
  [⟨0xbc, 0xffff, 0, 0x7⟩, ⟨0x36, 0xffff, 0, 0x32⟩, ⟨0x9d, 0x18, 3, 0x1⟩, ⟨0x9d, 0xc000, 14, 0x1⟩,
   ⟨0x9d, 0x3000, 12, 0x1⟩, ⟨0x9d, 0xc00, 10, 0x1⟩, ⟨0x9d, 0xe0, 5, 0x3⟩, ⟨0x52, 0x1c, 2, 0x0⟩, ⟨0x9b, 0xe0, 5, 0x0⟩,
   ⟨0x8c, 0xe0, 5, 0x0⟩, ⟨0x62, 0x1e00, 9, 0xc⟩, ⟨0x62, 0x180, 7, 0x3⟩, ⟨0x9c, 0x1800, 11, 0x1⟩, ⟨0x9c, 0x600, 9, 0x1⟩,
   ⟨0x9c, 0x180, 7, 0x1⟩, ⟨0x9c, 0x40, 6, 0x0⟩, ⟨0x9c, 0x1c, 2, 0x3⟩, ⟨0x0, 0x0, 0, 0x0⟩]

/-- `gthe4_ch_preset_10g_dfe_regs`, utils/xcvr_gthe4.c:316-320 -/
def gthe410gDfe : List RegVal :=
  [⟨0x62, 0x1e00, 9, 0x9⟩, ⟨0x62, 0x78, 3, 0xa⟩, ⟨0x0, 0x0, 0, 0x0⟩]

/-- `gthe4_ch_preset_10g_lpm_regs`, utils/xcvr_gthe4.c:322-326 -/
def gthe410gLpm : List RegVal :=
  [⟨0x62, 0x1e00, 9, 0x4⟩, ⟨0x62, 0x78, 3, 0x6⟩, ⟨0x0, 0x0, 0, 0x0⟩]

/-- `gtye3_ch_preset_10g_baser_64_regs`, utils/xcvr_gtye3.c:320-344 -/
def gtye310gBaser64 : List RegVal :=
  [⟨0x116, 0xffff, 0, 0x2424⟩, ⟨0xf7, 0xffff, 0, 0x0⟩, ⟨0xd7, 0xffff, 0, 0xc0c0⟩, ⟨0xd8, 0xffff, 0, 0x80c0⟩,
   ⟨0x115, 0xffff, 0, 0x400⟩, ⟨0x101, 0xffff, 0, 0x2104⟩, ⟨0x95, 0xffff, 0, 0x505a⟩, ⟨0xfb, 0x30, 4, 0x0⟩,
   ⟨0xa4, 0xffff, 0, 0x265⟩, ⟨0x10, 0xffff, 0, 0x265⟩, ⟨0x9d, 0xffff, 0, 0x202⟩, ⟨0x9b, 0x300, 8, 0x3⟩,
   ⟨0x8c, 0x300, 8, 0x3⟩, ⟨0xc6, 0xffff, 0, 0xc288⟩, ⟨0x103, 0xffff, 0, 0x1⟩, ⟨0x66, 0xc, 2, 0x2⟩, ⟨0xd3, 0x2, 1, 0x1⟩,
   ⟨0x9c, 0x40, 6, 0x1⟩, ⟨0x9c, 0x20, 5, 0x1⟩, ⟨0xfb, 0x6, 1, 0x1⟩, ⟨0x3e, 0xffff, 0, 0xc288⟩, ⟨0x105, 0xffff, 0, 0x1⟩,
   ⟨0x0, 0x0, 0, 0x0⟩]

/-- `gtye3_ch_preset_10g_dfe_regs`, utils/xcvr_gtye3.c:346-356 -/
def gtye310gDfe : List RegVal :=
  [⟨0x36, 0xffff, 0, 0x2⟩, ⟨0x9d, 0xffff, 0, 0x202⟩, ⟨0x52, 0x1c, 2, 0x4⟩, ⟨0x9c, 0x1800, 11, 0x0⟩, ⟨0x9c, 0x600, 9, 0x0⟩,
   ⟨0x9c, 0x180, 7, 0x0⟩, ⟨0x9c, 0x1c, 2, 0x0⟩, ⟨0xff, 0xffff, 0, 0x0⟩, ⟨0x0, 0x0, 0, 0x0⟩]

/-- `gtye3_ch_preset_10g_lpm_regs`, utils/xcvr_gtye3.c:358-368 -/
def gtye310gLpm : List RegVal :=
  [⟨0x36, 0xffff, 0, 0xe2⟩, ⟨0x9d, 0xffff, 0, 0x566a⟩, ⟨0x52, 0x1c, 2, 0x2⟩, ⟨0x9c, 0x1800, 11, 0x1⟩,
   ⟨0x9c, 0x600, 9, 0x1⟩, ⟨0x9c, 0x180, 7, 0x1⟩, ⟨0x9c, 0x1c, 2, 0x3⟩, ⟨0xff, 0xffff, 0, 0x2⟩, ⟨0x0, 0x0, 0, 0x0⟩]

/-- `gtye3_ch_preset_25g_baser_64_regs`, utils/xcvr_gtye3.c:370-394 -/
def gtye325gBaser64 : List RegVal :=
  [⟨0x116, 0xffff, 0, 0xb6b6⟩, ⟨0xf7, 0xffff, 0, 0x7⟩, ⟨0xd7, 0xffff, 0, 0x4040⟩, ⟨0xd8, 0xffff, 0, 0x40⟩,
   ⟨0x115, 0xffff, 0, 0x0⟩, ⟨0x101, 0xffff, 0, 0x2116⟩, ⟨0x95, 0xffff, 0, 0x504a⟩, ⟨0xfb, 0x30, 4, 0x2⟩,
   ⟨0xa4, 0xffff, 0, 0x1e9⟩, ⟨0x10, 0xffff, 0, 0x1e9⟩, ⟨0x9d, 0xffff, 0, 0x6⟩, ⟨0x9b, 0x300, 8, 0x1⟩,
   ⟨0x8c, 0x300, 8, 0x1⟩, ⟨0xc6, 0xffff, 0, 0xc208⟩, ⟨0x103, 0xffff, 0, 0x0⟩, ⟨0x66, 0xc, 2, 0x0⟩, ⟨0xd3, 0x2, 1, 0x0⟩,
   ⟨0x9c, 0x40, 6, 0x0⟩, ⟨0x9c, 0x20, 5, 0x0⟩, ⟨0xfb, 0x6, 1, 0x0⟩, ⟨0x3e, 0xffff, 0, 0xc208⟩, ⟨0x105, 0xffff, 0, 0x0⟩,
   ⟨0x0, 0x0, 0, 0x0⟩]

/-- `gtye3_ch_preset_25g_dfe_regs`, utils/xcvr_gtye3.c:396-405 -/
def gtye325gDfe : List RegVal :=
  [⟨0x36, 0xffff, 0, 0x2⟩, ⟨0x52, 0x1c, 2, 0x4⟩, ⟨0x9c, 0x1800, 11, 0x0⟩, ⟨0x9c, 0x600, 9, 0x0⟩, ⟨0x9c, 0x180, 7, 0x0⟩,
   ⟨0x9c, 0x1c, 2, 0x0⟩, ⟨0xff, 0xffff, 0, 0x0⟩, ⟨0x0, 0x0, 0, 0x0⟩]

/-- `gtye3_ch_preset_25g_lpm_regs`, utils/xcvr_gtye3.c:407-416 -/
def gtye325gLpm : List RegVal :=
  [⟨0x36, 0xffff, 0, 0xe2⟩, ⟨0x52, 0x1c, 2, 0x2⟩, ⟨0x9c, 0x1800, 11, 0x0⟩, ⟨0x9c, 0x600, 9, 0x0⟩, ⟨0x9c, 0x180, 7, 0x0⟩,
   ⟨0x9c, 0x1c, 2, 0x0⟩, ⟨0xff, 0xffff, 0, 0x0⟩, ⟨0x0, 0x0, 0, 0x0⟩]

/-- `gtye4_ch_preset_10g_baser_64_regs`, utils/xcvr_gtye4.c:320-361 -/
def gtye410gBaser64 : List RegVal :=
  [⟨0x116, 0xffff, 0, 0x4040⟩, ⟨0xf7, 0xffff, 0, 0xc0c0⟩, ⟨0xf8, 0xffff, 0, 0x10c0⟩, ⟨0xf9, 0xffff, 0, 0xc0c0⟩,
   ⟨0x101, 0xffff, 0, 0x80c0⟩, ⟨0xfb, 0x30, 4, 0x1⟩, ⟨0xdd, 0x7, 0, 0x3⟩, ⟨0xdd, 0x18, 3, 0x0⟩, ⟨0x10, 0xffff, 0, 0x269⟩,
   ⟨0x135, 0xfc00, 10, 0x12⟩, ⟨0xa5, 0xffff, 0, 0x12⟩, ⟨0x11c, 0xffff, 0, 0x12⟩, ⟨0x11, 0xffff, 0, 0x12⟩,
   ⟨0x10a, 0xffff, 0, 0x0⟩, ⟨0x108, 0xffff, 0, 0x0⟩, ⟨0x109, 0xffff, 0, 0x0⟩, ⟨0x10e, 0xffff, 0, 0x0⟩,
   ⟨0x10b, 0xffff, 0, 0x0⟩, ⟨0x10d, 0xffff, 0, 0x0⟩, ⟨0x10c, 0xffff, 0, 0x0⟩, ⟨0xb1, 0xffff, 0, 0x200⟩,
   ⟨0xb0, 0xffff, 0, 0x4101⟩, ⟨0x75, 0xffff, 0, 0x102⟩, ⟨0xd2, 0xffff, 0, 0x54⟩, ⟨0xc6, 0xffff, 0, 0xe200⟩,
   ⟨0x103, 0xffff, 0, 0x1⟩, ⟨0x66, 0xc, 2, 0x1⟩, ⟨0xd3, 0x2, 1, 0x1⟩, ⟨0xfa, 0x600, 9, 0x0⟩, ⟨0x9d, 0xffff, 0, 0x3c2⟩,
   ⟨0xa1, 0xffff, 0, 0x6c00⟩, ⟨0x53, 0xffff, 0, 0x6c00⟩, ⟨0x54, 0xffff, 0, 0x6c00⟩, ⟨0xa7, 0xffff, 0, 0x300⟩,
   ⟨0xa8, 0xffff, 0, 0x1000⟩, ⟨0xfa, 0x40, 6, 0x0⟩, ⟨0xfb, 0x6, 1, 0x1⟩, ⟨0x57, 0xffff, 0, 0xe200⟩,
   ⟨0x105, 0xffff, 0, 0x1⟩, ⟨0x0, 0x0, 0, 0x0⟩]

/-- `gtye4_ch_preset_25g_baser_64_regs`, utils/xcvr_gtye4.c:363-404 -/
def gtye425gBaser64 : List RegVal :=
  [⟨0x116, 0xffff, 0, 0x9090⟩, ⟨0xf7, 0xffff, 0, 0x4040⟩, ⟨0xf8, 0xffff, 0, 0x1040⟩, ⟨0xf9, 0xffff, 0, 0x4040⟩,
   ⟨0x101, 0xffff, 0, 0x40⟩, ⟨0xfb, 0x30, 4, 0x3⟩, ⟨0xdd, 0x7, 0, 0x7⟩, ⟨0xdd, 0x18, 3, 0x3⟩, ⟨0x10, 0xffff, 0, 0x1e9⟩,
   ⟨0x135, 0xfc00, 10, 0x10⟩, ⟨0xa5, 0xffff, 0, 0x10⟩, ⟨0x11c, 0xffff, 0, 0x10⟩, ⟨0x11, 0xffff, 0, 0x10⟩,
   ⟨0x10a, 0xffff, 0, 0x4⟩, ⟨0x108, 0xffff, 0, 0x4⟩, ⟨0x109, 0xffff, 0, 0x4⟩, ⟨0x10e, 0xffff, 0, 0x4⟩,
   ⟨0x10b, 0xffff, 0, 0x4⟩, ⟨0x10d, 0xffff, 0, 0x4⟩, ⟨0x10c, 0xffff, 0, 0x4⟩, ⟨0xb1, 0xffff, 0, 0x281c⟩,
   ⟨0xb0, 0xffff, 0, 0x4120⟩, ⟨0x75, 0xffff, 0, 0x3006⟩, ⟨0xd2, 0xffff, 0, 0x0⟩, ⟨0xc6, 0xffff, 0, 0xe218⟩,
   ⟨0x103, 0xffff, 0, 0x0⟩, ⟨0x66, 0xc, 2, 0x2⟩, ⟨0xd3, 0x2, 1, 0x0⟩, ⟨0xfa, 0x600, 9, 0x3⟩, ⟨0x9d, 0xffff, 0, 0x3c6⟩,
   ⟨0xa1, 0xffff, 0, 0xf800⟩, ⟨0x53, 0xffff, 0, 0xf800⟩, ⟨0x54, 0xffff, 0, 0xf800⟩, ⟨0xa7, 0xffff, 0, 0x3000⟩,
   ⟨0xa8, 0xffff, 0, 0x0⟩, ⟨0xfa, 0x40, 6, 0x1⟩, ⟨0xfb, 0x6, 1, 0x3⟩, ⟨0x57, 0xffff, 0, 0xe218⟩, ⟨0x105, 0xffff, 0, 0x0⟩,
   ⟨0x0, 0x0, 0, 0x0⟩]

/-- `gtye4_ch_preset_dfe_regs`, utils/xcvr_gtye4.c:406-412 -/
def gtye4Dfe : List RegVal :=
  [⟨0xd0, 0x70, 4, 0x7⟩, ⟨0x52, 0x1c, 2, 0x4⟩, ⟨0xd8, 0xffff, 0, 0xf⟩, ⟨0x8c, 0x10, 4, 0x1⟩, ⟨0x0, 0x0, 0, 0x0⟩]

/-- `gtye4_ch_preset_lpm_regs`, utils/xcvr_gtye4.c:414-420 -/
def gtye4Lpm : List RegVal :=
  [⟨0xd0, 0x70, 4, 0x4⟩, ⟨0x52, 0x1c, 2, 0x2⟩, ⟨0xd8, 0xffff, 0, 0x2f⟩, ⟨0x8c, 0x10, 4, 0x0⟩, ⟨0x0, 0x0, 0, 0x0⟩]

/-- types of transceivers -/
inductive Kind | gthe3 | gthe4 | gtye3 | gtye4
deriving DecidableEq, Repr

/-- `GT_PRESET_...`, xcvr_gt.h -/
inductive Preset | g10dfe | g10lpm | g25dfe | g25lpm
deriving DecidableEq, Repr

/-- tables of a preset in the order in which they are written: `gthe3_ch_load_preset` (xcvr_gthe3.c:358-383), `gthe4_ch_load_preset`
(xcvr_gthe4.c:340-365), `gtye3_ch_load_preset` (xcvr_gtye3.c:432-497), `gtye4_ch_load_preset` (xcvr_gtye4.c:436-501; 25G with a PLL that can do it) -/
def tables : Kind → Preset → Option (List (List RegVal))
  | .gthe3, .g10dfe => some [gthe310gDfe]
  | .gthe3, .g10lpm => some [gthe310gLpm]
  | .gthe3, _ => none
  | .gthe4, .g10dfe => some [gthe410gDfe]
  | .gthe4, .g10lpm => some [gthe410gLpm]
  | .gthe4, _ => none
  | .gtye3, .g10dfe => some [gtye310gBaser64, gtye310gDfe]
  | .gtye3, .g10lpm => some [gtye310gBaser64, gtye310gLpm]
  | .gtye3, .g25dfe => some [gtye325gBaser64, gtye325gDfe]
  | .gtye3, .g25lpm => some [gtye325gBaser64, gtye325gLpm]
  | .gtye4, .g10dfe => some [gtye410gBaser64, gtye4Dfe]
  | .gtye4, .g10lpm => some [gtye410gBaser64, gtye4Lpm]
  | .gtye4, .g25dfe => some [gtye425gBaser64, gtye4Dfe]
  | .gtye4, .g25lpm => some [gtye425gBaser64, gtye4Lpm]

/-- the same functions: the outcome of writing a table is not looked at; true for the return value 0 -/
def loadPreset (k : Kind) (u : Unit') (b : Bus) (p : Preset) : Bus × Bool :=
  match tables k p with
  | none => (b, false)
  | some ts => (ts.foldl (fun b t => (writeMultiple u b t).1) b, true)

end Corundum.XcvrReg
