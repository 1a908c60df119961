import Mathlib.Data.List.Basic

/-! C265: command line of the C++ demonstration program, demo_momentumopt.cpp:40-50. -/
namespace Verif
namespace DemoMain

/-- What the program does after looking at its arguments. -/
inductive Start where
  /-- prints the usage and returns 1 -/
  | usage
  /-- goes on with this configuration file, demo_momentumopt.cpp:52-79 -/
  | load (path : String)
deriving DecidableEq

/-- `main` up to the first use of the file name, demo_momentumopt.cpp:42-50: `argv` with the name of the program first; `std::strcmp(argv[1], "i")` is nonzero, hence true, if the strings differ. `src` is
`CFG_SRC_PATH`. -/
def start (src : String) (argv : List String) : Start :=
  if argv.length = 3 then
    if argv[1]? ≠ some "i" then .load (src ++ argv[2]?.getD "") else .load src
  else .usage

/-- C265, what holds: as documented, the program called with `-i` and a name loads the file of that name in the configuration folder; without exactly two arguments it prints the usage and
loads nothing. -/
theorem C265_args_partial (src : String) (argv : List String) :
    (∀ prog name, argv = [prog, "-i", name] → start src argv = .load (src ++ name)) ∧ (argv.length ≠ 3 → start src argv = .usage) := by
  refine ⟨?_, fun h => if_neg h⟩
  rintro prog name rfl
  simp [start]

/-- C265 is false otherwise: every other first argument is taken for `-i`, and after `i` the name is ignored and the configuration folder itself is loaded. -/
theorem C265_args_violated (src prog name : String) : start src [prog, "i", name] = .load src ∧ ∀ flag, flag ≠ "i" → start src [prog, flag, name] = start src [prog, "-i", name] := by
  refine ⟨by simp [start], fun flag h => by simp [start, h]⟩

/-- The two cases are met. -/
example : start "config/" ["demo", "-i", "cfg_momSc_demo01.yaml"] = .load "config/cfg_momSc_demo01.yaml" ∧ start "config/" ["demo"] = .usage := by decide

end DemoMain
end Verif
