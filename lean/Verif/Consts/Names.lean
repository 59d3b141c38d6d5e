/- C125: which constant of xraylib a key stands for.  Consts/Model.lean names lines and shells by their position in `line_list` and
`shell_list`; here the two lists are written down and the values are those xraylib has for the constants. -/
import Verif.Consts.Props

namespace Verif.Consts

/-- `line_list`: the constants of xraylib, by name; xrf.py 136-162. -/
def lineList : List String := ["KA1_LINE", "KA2_LINE", "KA3_LINE", "KB1_LINE", "KB2_LINE", "KB3_LINE", "KB4_LINE", "KB5_LINE", "LA1_LINE", "LA2_LINE", "LB1_LINE", "LB2_LINE",
  "LB3_LINE", "LB4_LINE", "LB5_LINE", "LG1_LINE", "LG2_LINE", "LG3_LINE", "LG4_LINE", "LL_LINE", "LE_LINE", "MA1_LINE", "MA2_LINE", "MB_LINE", "MG_LINE"]

/-- `shell_list`; xrf.py 164-189. -/
def shellList : List String := ["K_SHELL", "L1_SHELL", "L2_SHELL", "L3_SHELL", "M1_SHELL", "M2_SHELL", "M3_SHELL", "M4_SHELL", "M5_SHELL", "N1_SHELL", "N2_SHELL", "N3_SHELL",
  "N4_SHELL", "N5_SHELL", "N6_SHELL", "N7_SHELL", "O1_SHELL", "O2_SHELL", "O3_SHELL", "O4_SHELL", "O5_SHELL", "P1_SHELL", "P2_SHELL", "P3_SHELL"]

namespace Spec

/-- xraylib's functions of an element and a line or shell given by the name of its constant; `none` is ValueError. -/
structure Lib where
  LineEnergy : ℤ → String → Option ℚ
  EdgeEnergy : ℤ → String → Option ℚ
  JumpFactor : ℤ → String → Option ℚ
  FluorYield : ℤ → String → Option ℚ
  CS_FluorLine_Kissel : ℤ → String → ℚ → Option ℚ
  CSb_FluorLine_Kissel : ℤ → String → ℚ → Option ℚ

/-- The lines of the documentation, and xraylib's constants for them: the same name but for Ln, the line eta of the L shell. -/
def lineOf : List (String × String) := [("ka1", "KA1_LINE"), ("ka2", "KA2_LINE"), ("ka3", "KA3_LINE"), ("kb1", "KB1_LINE"), ("kb2", "KB2_LINE"), ("kb3", "KB3_LINE"),
  ("kb4", "KB4_LINE"), ("kb5", "KB5_LINE"), ("ma1", "MA1_LINE"), ("ma2", "MA2_LINE"), ("mb", "MB_LINE"), ("mg", "MG_LINE"), ("la1", "LA1_LINE"), ("la2", "LA2_LINE"),
  ("lb1", "LB1_LINE"), ("lb2", "LB2_LINE"), ("lb3", "LB3_LINE"), ("lb4", "LB4_LINE"), ("lb5", "LB5_LINE"), ("lg1", "LG1_LINE"), ("lg2", "LG2_LINE"), ("lg3", "LG3_LINE"),
  ("lg4", "LG4_LINE"), ("ll", "LL_LINE"), ("ln", "LE_LINE")]

/-- The shells and xraylib's constants for them: the same name. -/
def shellOf : List (String × String) := ["p3", "p2", "p1", "o5", "o4", "o3", "o2", "o1", "n7", "n6", "n5", "n4", "n3", "n2", "n1", "m5", "m4", "m3", "m2", "m1", "l3", "l2", "l1", "k"].map
  (fun s => (s, s.toUpper ++ "_SHELL"))

end Spec

/-- xraylib as the tables of xrf.py address it: position `n` is the constant at position `n` of `line_list` or `shell_list`; xrf.py 136-204. -/
def atPositions (lib : Spec.Lib) : XrayLib where
  lineEnergy z n := (lineList[n]?).bind (lib.LineEnergy z)
  edgeEnergy z n := (shellList[n]?).bind (lib.EdgeEnergy z)
  jump z n := (shellList[n]?).bind (lib.JumpFactor z)
  fluorYield z n := (shellList[n]?).bind (lib.FluorYield z)
  cs z n e := (lineList[n]?).bind (fun c => lib.CS_FluorLine_Kissel z c e)
  csb z n e := (lineList[n]?).bind (fun c => lib.CSb_FluorLine_Kissel z c e)

/-- C125: a key in any letter case gives xraylib's number for the line of that name (0 where xraylib has none), for energies and both cross sections. -/
theorem C125_line_constants (lib : Spec.Lib) (z : ℤ) (key : Io.Text) (name const : String) (h : (name, const) ∈ Spec.lineOf) (hk : lower key = name.toList) :
    Info.lines.getItem (atPositions lib) z key = .ok ((lib.LineEnergy z const).getD 0) ∧
    ∀ e, (Info.cs e).getItem (atPositions lib) z key = .ok ((lib.CS_FluorLine_Kissel z const e).getD 0) ∧
      (Info.csb e).getItem (atPositions lib) z key = .ok ((lib.CSb_FluorLine_Kissel z const e).getD 0) := by
  have key1 : ∀ p ∈ Spec.lineOf, ∃ n < 25, lineList[n]? = some p.2 ∧ ∃ m ∈ lineName, lineName[n]? = some m ∧ p.1.toList = lower m.toList := by decide +kernel
  obtain ⟨n, _, hn, m, _, hm, hp⟩ := key1 _ h
  obtain ⟨h1, h2⟩ := (C125_values (atPositions lib) z key n m (hk.trans hp)).1 hm
  refine ⟨?_, fun e => ⟨?_, ?_⟩⟩
  · rw [h1]; simp only [atPositions, hn, Option.bind_some]
  · rw [(h2 e).1]; simp only [atPositions, hn, Option.bind_some]
  · rw [(h2 e).2]; simp only [atPositions, hn, Option.bind_some]

/-- C125: likewise for binding energies, jump factors and fluorescence yields of the shells. -/
theorem C125_shell_constants (lib : Spec.Lib) (z : ℤ) (key : Io.Text) (name const : String) (h : (name, const) ∈ Spec.shellOf) (hk : lower key = name.toList) :
    Info.bindingE.getItem (atPositions lib) z key = .ok ((lib.EdgeEnergy z const).getD 0) ∧
    Info.jump.getItem (atPositions lib) z key = .ok ((lib.JumpFactor z const).getD 0) ∧
    Info.yield.getItem (atPositions lib) z key = .ok ((lib.FluorYield z const).getD 0) := by
  have key1 : ∀ p ∈ Spec.shellOf, ∃ n < 24, shellList[n]? = some p.2 ∧ ∃ m ∈ Consts.bindingE, Consts.bindingE[n]? = some m ∧ p.1.toList = lower m.toList := by decide +kernel
  obtain ⟨n, _, hn, m, _, hm, hp⟩ := key1 _ h
  obtain ⟨h1, h2, h3⟩ := (C125_values (atPositions lib) z key n m (hk.trans hp)).2 hm
  refine ⟨?_, ?_, ?_⟩
  · rw [h1]; simp only [atPositions, hn, Option.bind_some]
  · rw [h2]; simp only [atPositions, hn, Option.bind_some]
  · rw [h3]; simp only [atPositions, hn, Option.bind_some]

example : ("ln", "LE_LINE") ∈ Spec.lineOf ∧ lower "Ln".toList = "ln".toList ∧ ("l2", "L2_SHELL") ∈ Spec.shellOf ∧ lower "L2".toList = "l2".toList := by decide +kernel

end Verif.Consts
