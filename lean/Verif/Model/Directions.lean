import Verif.Model.Variogram

/-!
# The directions of src/kriging/variogram_calculator.cpp

The coordinates are the decimals of the source in units of 10⁻⁹ (their rounding to doubles is left out).
-/

namespace Verif.Variogram

/-- `src/kriging/variogram_calculator.cpp:14-17` - `VariogramCalculator<2>::kAnisotropicDirections` -/
def table2 : List (ℤ × ℤ) :=
  [(1000000000, 0), (923879530, 382683430), (707106780, 707106780), (382683430, 923879530),
   (0, 1000000000), (-382683430, 923879530), (-707106780, 707106780), (-923879530, 382683430)]

/-- `src/kriging/variogram_calculator.cpp:22-69` - `VariogramCalculator<3>::kAnisotropicDirections` -/
def table3 : List (ℤ × ℤ × ℤ) :=
  [(0, 0, 1000000000), (106078920, 326477350, 939233600), (-277718250, 201774110, 939233600),
   (-187592480, 577350260, 794654490), (-555436490, 403548210, 727075760), (-449357540, 730025590, 514917910),
   (-723606820, 525731090, 447213590), (212157850, 652954700, 727075760), (-65560378, 854728820, 514917910),
   (276393200, 850650790, 447213590), (-277718250, -201774110, 939233600), (-607061980, 0, 794654490),
   (-555436490, -403548210, 727075760), (-833154680, -201774110, 514917910), (-723606820, -525731090, 447213590),
   (-833154680, 201774110, 514917910), (106078920, -326477350, 939233600), (-187592480, -577350260, 794654490),
   (212157850, -652954700, 727075760), (-65560378, -854728820, 514917910), (276393200, -850650790, 447213590),
   (-449357540, -730025590, 514917910), (343278620, 0, 939233600), (491123470, -356822100, 794654490),
   (686557230, 0, 727075760), (792636160, -326477350, 514917910), (894427180, 0, 447213590),
   (555436490, -652954700, 514917910), (491123470, 356822100, 794654490), (555436490, 652954700, 514917910),
   (792636160, 326477350, 514917910), (106078920, 979432110, 171639310), (-303530990, 934172330, 187592480),
   (-661515410, 730025590, 171639310), (-898715080, 403548210, 171639310), (-982246940, 0, 187592480),
   (-898715080, -403548210, 171639310), (-661515410, -730025590, 171639310), (-303530990, -934172330, 187592480),
   (106078920, -979432110, 171639310), (489876090, -854728820, 171639310), (794654490, -577350260, 187592480),
   (964275480, -201774110, 171639310), (964275480, 201774110, 171639310), (794654490, 577350260, 187592480),
   (489876090, 854728820, 171639310)]

/-- `src/kriging/variogram_calculator.cpp:8-9` -/
def kAnisotropicDirections1 : List (Vec 1) := [![1]]

/-- `src/kriging/variogram_calculator.cpp:14-17` -/
noncomputable def kAnisotropicDirections2 : List (Vec 2) := table2.map fun d => ![d.1 / 10 ^ 9, d.2 / 10 ^ 9]

/-- `src/kriging/variogram_calculator.cpp:22-69` -/
noncomputable def kAnisotropicDirections3 : List (Vec 3) := table3.map fun d => ![d.1 / 10 ^ 9, d.2.1 / 10 ^ 9, d.2.2 / 10 ^ 9]

end Verif.Variogram
