import Verif.Safe

/-!
Tests of the model, not proofs: the tables of expected results in /repo/test against the model (LP64).
Each table is compared completely, by evaluation.
The rows were copied from the test files by a script.
-/

namespace Verif.Conform
attribute [local instance] lp64

/-- the values: test/test_values.hpp:21-55 -/
def values : List (ITy × Int) :=
  [(i8, 1), (i8, 127), (i8, -128), (i8, -1), (i16, 1), (i16, 32767), (i16, -32768), (i16, -1), (i32, 1), (i32, 2147483647), (i32, -2147483648), (i32, -1), (i64, 1), (i64, 9223372036854775807), (i64, -9223372036854775808), (i64, -1), (u8, 1), (u8, 127), (u8, 128), (u8, 255), (u16, 1), (u16, 32767), (u16, 32768), (u16, 65535), (u32, 1), (u32, 2147483647), (u32, 2147483648), (u32, 4294967295), (u64, 1), (u64, 9223372036854775807), (u64, 9223372036854775808), (u64, 18446744073709551615), (i8, 0)]

/-- test/test_add_native_results.hpp:12 -/
def t_addN : List String :=
  [".........x...x.............x...x.",
   ".........x...x.............x...x.",
   "..........x...x.........xxxxxxxx.",
   "..........x...x.........xxxxxxxx.",
   ".........x...x.............x...x.",
   ".........x...x.............x...x.",
   "..........x...x.........xxxxxxxx.",
   "..........x...x.........xxxxxxxx.",
   ".........x...x.............x...x.",
   "xx..xx..xx...x..xxxxxxxx...x...x.",
   "..xx..xx..xx..x.........xxxxxxxx.",
   "..........x...x.........xxxxxxxx.",
   ".............x.................x.",
   "xx..xx..xx..xx..xxxxxxxxxxxx...x.",
   "..xx..xx..xx..xx............xxxx.",
   "..............x.............xxxx.",
   ".........x...x.............x...x.",
   ".........x...x.............x...x.",
   ".........x...x.............x...x.",
   ".........x...x.............x...x.",
   ".........x...x.............x...x.",
   ".........x...x.............x...x.",
   ".........x...x.............x...x.",
   ".........x...x.............x...x.",
   "..xx..xx..xx.x.............x...x.",
   "..xx..xx..xx.x.............x...x.",
   "..xx..xx..xx.x............xx...x.",
   "xxxxxxxxxxxx.x..xxxxxxxxxxxx...x.",
   "..xx..xx..xx..xx...............x.",
   "..xx..xx..xx..xx...............x.",
   "..xx..xx..xx..xx..............xx.",
   "xxxxxxxxxxxxxxxxxxxxxxxxxxxxxxxx.",
   "................................."]

/-- test/test_add_automatic_results.hpp:12 -/
def t_addA : List String :=
  [".............x...............xxx.",
   ".............x...............xxx.",
   "..............x...............xx.",
   "..............x...............xx.",
   ".............x...............xxx.",
   ".............x...............xxx.",
   "..............x...............xx.",
   "..............x...............xx.",
   ".............x...............xxx.",
   ".............x...............xxx.",
   "..............x...............xx.",
   "..............x...............xx.",
   ".............x...............xxx.",
   "xx..xx..xx..xx..xxxxxxxxxxxxxxxx.",
   "..xx..xx..xx..xx..............xx.",
   "..............x...............xx.",
   ".............x.................x.",
   ".............x.................x.",
   ".............x.................x.",
   ".............x.................x.",
   ".............x.................x.",
   ".............x.................x.",
   ".............x.................x.",
   ".............x.................x.",
   ".............x.................x.",
   ".............x.................x.",
   ".............x.................x.",
   ".............x.................x.",
   ".............x.................x.",
   "xx..xx..xx..xx.................x.",
   "xxxxxxxxxxxxxxxx..............xxx",
   "xxxxxxxxxxxxxxxxxxxxxxxxxxxxxxxxx",
   "..............................xx."]

/-- test/test_checked_add.hpp:20 -/
def t_cAddS : List String :=
  ["!!!!!!!!!",
   "!!!!!!!!!",
   "!!++++++!",
   "!!+++...-",
   "!!++....-",
   "!!+.....-",
   "!!+....--",
   "!!+...---",
   "!!!------"]

/-- test/test_checked_add.hpp:33 -/
def t_cAddU : List String :=
  ["!!!!!!!",
   "!!!!!!!",
   "!!++++!",
   "!!+++.-",
   "!!++..-",
   "!!+...-",
   "!!!----"]

/-- test/test_subtract_native_results.hpp:3 -/
def t_subN : List String :=
  ["..........x...x..........xxx.xxx.",
   "..........x...x..........xxx.xxx.",
   ".........x...x..........xxxxxxxx.",
   "........................xxxxxxxx.",
   "..........x...x..........xxx.xxx.",
   "..........x...x..........xxx.xxx.",
   ".........x...x..........xxxxxxxx.",
   "........................xxxxxxxx.",
   "..........x...x..........xxx.xxx.",
   "..xx..xx..xx..x...........xx.xxx.",
   "xx..xx..xx...x..xxxxxxxxxxxxxxxx.",
   "........................xxxxxxxx.",
   "..............x..............xxx.",
   "..xx..xx..xx..xx..............xx.",
   "xx..xx..xx..xx..xxxxxxxxxxxxxxxx.",
   "............................xxxx.",
   "..........x...x..........xxx.xxx.",
   "..........x...x..........xxx.xxx.",
   "..........x...x..........xxx.xxx.",
   "..........x...x..........xxx.xxx.",
   "..........x...x..........xxx.xxx.",
   "..........x...x..........xxx.xxx.",
   "..........x...x..........xxx.xxx.",
   "..........x...x..........xxx.xxx.",
   ".xxx.xxx.xxx..x..xxx.xxx.xxx.xxx.",
   "..xx..xx..xx..x...........xx.xxx.",
   "..xx..xx..xx..x............x.xxx.",
   "..xx..xx..xx..x..............xxx.",
   ".xxx.xxx.xxx.xxx.xxx.xxx.xxx.xxx.",
   "..xx..xx..xx..xx..............xx.",
   "..xx..xx..xx..xx...............x.",
   "..xx..xx..xx..xx.................",
   "..........x...x.........xxxxxxxx."]

/-- test/test_subtract_automatic_results.hpp:16 -/
def t_subA : List String :=
  ["..............x...............xx.",
   "..............x...............xx.",
   ".............x...............xxx.",
   "..............................xx.",
   "..............x...............xx.",
   "..............x...............xx.",
   ".............x...............xxx.",
   "..............................xx.",
   "..............x...............xx.",
   "..............x...............xx.",
   ".............x...............xxx.",
   "..............................xx.",
   "..............x...............xx.",
   "..xx..xx..xx..xx..............xx.",
   "xx..xx..xx..xx..xxxxxxxxxxxxxxxx.",
   "..............................xx.",
   "..............x...............xx.",
   "..............x...............xx.",
   "..............x...............xx.",
   "..............x...............xx.",
   "..............x...............xx.",
   "..............x...............xx.",
   "..............x...............xx.",
   "..............x...............xx.",
   "..............x...............xx.",
   "..............x...............xx.",
   "..............x...............xx.",
   "..............x...............xx.",
   "..............x...............xx.",
   "..xx..xx..xx..xx..............xx.",
   "xxxxxxxxxxxxxxxxxxxxxxxxxxxxxxxxx",
   "xxxxxxxxxxxxxxxxxxxxxxxxxxxxxxxxx",
   "..............x...............xx."]

/-- test/test_checked_subtract.hpp:20 -/
def t_cSubS : List String :=
  ["!!!!!!!!!",
   "!!!!!!!!!",
   "!!!++++++",
   "!!-...+++",
   "!!-....++",
   "!!-....++",
   "!!-.....+",
   "!!---...+",
   "!!------!"]

/-- test/test_checked_subtract.hpp:33 -/
def t_cSubU : List String :=
  ["!!!!!!!",
   "!!!!!!!",
   "!!!++++",
   "!!-...+",
   "!!--..+",
   "!!---.+",
   "!!----!"]

/-- test/test_multiply_native_results.hpp:3 -/
def t_mulN : List String :=
  [".................................",
   ".........xx..xx..........xxx.xxx.",
   ".........xx..xx.........xxxxxxxx.",
   "..........x...x.........xxxxxxxx.",
   ".................................",
   ".........xx..xx..........xxx.xxx.",
   ".........xx..xx.........xxxxxxxx.",
   "..........x...x.........xxxxxxxx.",
   ".................................",
   ".xx..xx..xx..xx..xxx.xxx.xxx.xxx.",
   ".xxx.xxx.xxx.xx..xxx.xxxxxxxxxxx.",
   "..........x...x.........xxxxxxxx.",
   ".................................",
   ".xx..xx..xx..xx..xxx.xxx.xxx.xxx.",
   ".xxx.xxx.xxx.xxx.xxx.xxx.xxxxxxx.",
   "..............x.............xxxx.",
   ".................................",
   ".........xx..xx..........xxx.xxx.",
   ".........xx..xx..........xxx.xxx.",
   ".........xx..xx..........xxx.xxx.",
   ".................................",
   ".........xx..xx..........xxx.xxx.",
   ".........xx..xx..........xxx.xxx.",
   ".........xx..xx........x.xxx.xxx.",
   "..xx..xx..xx.....................",
   ".xxx.xxx.xxx.xx..xxx.xxx.xxx.xxx.",
   ".xxx.xxx.xxx.xx..xxx.xxx.xxx.xxx.",
   ".xxx.xxx.xxx.xx..xxx.xxx.xxx.xxx.",
   "..xx..xx..xx..xx.................",
   ".xxx.xxx.xxx.xxx.xxx.xxx.xxx.xxx.",
   ".xxx.xxx.xxx.xxx.xxx.xxx.xxx.xxx.",
   ".xxx.xxx.xxx.xxx.xxx.xxx.xxx.xxx.",
   "................................."]

/-- test/test_multiply_automatic_results.hpp:12 -/
def t_mulA : List String :=
  ["..............................xx.",
   ".............xx..............xxx.",
   ".............xx..............xxx.",
   "..............x...............xx.",
   "..............................xx.",
   ".............xx..............xxx.",
   ".............xx..............xxx.",
   "..............x...............xx.",
   "..............................xx.",
   ".............xx..............xxx.",
   ".............xx..............xxx.",
   "..............x...............xx.",
   "..............................xx.",
   ".xx..xx..xx..xx..xxx.xxx.xxx.xxx.",
   ".xxx.xxx.xxx.xxx.xxx.xxx.xxx.xxx.",
   "..............x...............xx.",
   ".................................",
   ".............xx..............xxx.",
   ".............xx..............xxx.",
   ".............xx..............xxx.",
   ".................................",
   ".............xx..............xxx.",
   ".............xx..............xxx.",
   ".............xx..............xxx.",
   ".................................",
   ".............xx..............xxx.",
   ".............xx..............xxx.",
   ".............xx..............xxx.",
   ".................................",
   ".xx..xx..xx..xx..xxx.xxx.xxx.xxx.",
   "xxxxxxxxxxxxxxxx.xxx.xxx.xxx.xxxx",
   "xxxxxxxxxxxxxxxx.xxx.xxx.xxx.xxxx",
   "..............................xx."]

/-- test/test_checked_multiply.hpp:20 -/
def t_cMulS : List String :=
  ["!!!!!!!!!",
   "!!!!!!!!!",
   "!!+++.---",
   "!!++...--",
   "!!+.....-",
   "!!...0000",
   "!!-..0.++",
   "!!--.0+++",
   "!!---0+++"]

/-- test/test_checked_multiply.hpp:33 -/
def t_cMulU : List String :=
  ["!!!!!!!",
   "!!!!!!!",
   "!!+++.-",
   "!!++..-",
   "!!+...-",
   "!!...00",
   "!!---0+"]

/-- test/test_divide_native_results.hpp:16 -/
def t_divN : List String :=
  ["................................x",
   "................................x",
   "........................xxxxxxxxx",
   "........................xxxxxxxxx",
   "................................x",
   "................................x",
   "........................xxxxxxxxx",
   "........................xxxxxxxxx",
   "................................x",
   "................................x",
   "...x...x...x............xxxxxxxxx",
   "........................xxxxxxxxx",
   "................................x",
   "................................x",
   "...x...x...x...x............xxxxx",
   "............................xxxxx",
   "................................x",
   "................................x",
   "................................x",
   "................................x",
   "................................x",
   "................................x",
   "................................x",
   "................................x",
   "..xx..xx..xx....................x",
   "..xx..xx..xx....................x",
   "..xx..xx..xx....................x",
   "..xx..xx..xx....................x",
   "..xx..xx..xx..xx................x",
   "..xx..xx..xx..xx................x",
   "..xx..xx..xx..xx................x",
   "..xx..xx..xx..xx................x",
   "................................x"]

/-- test/test_divide_automatic_results.hpp:12 -/
def t_divA : List String :=
  ["..............................xxx",
   "..............................xxx",
   "..............................xxx",
   "..............................xxx",
   "..............................xxx",
   "..............................xxx",
   "..............................xxx",
   "..............................xxx",
   "..............................xxx",
   "..............................xxx",
   "..............................xxx",
   "..............................xxx",
   "..............................xxx",
   "..............................xxx",
   "...x...x...x...x..............xxx",
   "..............................xxx",
   "................................x",
   "................................x",
   "................................x",
   "................................x",
   "................................x",
   "................................x",
   "................................x",
   "................................x",
   "................................x",
   "................................x",
   "................................x",
   "................................x",
   "................................x",
   "................................x",
   "xxxxxxxxxxxxxxxx................x",
   "xxxxxxxxxxxxxxxx................x",
   "..............................xxx"]

/-- test/test_checked_divide.hpp:20 -/
def t_cDivS : List String :=
  ["!!!!!!!!!",
   "!!!!!!!!!",
   "!!!+++---",
   "!!0..+..0",
   "!!0..+.00",
   "!!000!000",
   "!!0..-.00",
   "!!0..-+.0",
   "!!----++!"]

/-- test/test_checked_divide.hpp:33 -/
def t_cDivU : List String :=
  ["!!!!!!!",
   "!!!!!!!",
   "!!!+++-",
   "!!0..+.",
   "!!0..+.",
   "!!000!0",
   "!!----!"]

/-- test/test_modulus_native_results.hpp:12 -/
def t_modN : List String :=
  ["................................x",
   "................................x",
   "........................xxxxxxxxx",
   "........................xxxxxxxxx",
   "................................x",
   "................................x",
   "........................xxxxxxxxx",
   "........................xxxxxxxxx",
   "................................x",
   "................................x",
   "........................xxxxxxxxx",
   "........................xxxxxxxxx",
   "................................x",
   "................................x",
   "............................xxxxx",
   "............................xxxxx",
   "................................x",
   "................................x",
   "................................x",
   "................................x",
   "................................x",
   "................................x",
   "................................x",
   "................................x",
   "..xx..xx..xx....................x",
   "..xx..xx..xx....................x",
   "..xx..xx..xx....................x",
   "..xx..xx..xx....................x",
   "..xx..xx..xx..xx................x",
   "..xx..xx..xx..xx................x",
   "..xx..xx..xx..xx................x",
   "..xx..xx..xx..xx................x",
   "................................x"]

/-- test/test_modulus_automatic_results.hpp:12 -/
def t_modA : List String :=
  ["..............................xxx",
   "..............................xxx",
   "..............................xxx",
   "..............................xxx",
   "..............................xxx",
   "..............................xxx",
   "..............................xxx",
   "..............................xxx",
   "..............................xxx",
   "..............................xxx",
   "..............................xxx",
   "..............................xxx",
   "..............................xxx",
   "..............................xxx",
   "..............................xxx",
   "..............................xxx",
   "................................x",
   "................................x",
   "................................x",
   "................................x",
   "................................x",
   "................................x",
   "................................x",
   "................................x",
   "................................x",
   "................................x",
   "................................x",
   "................................x",
   "................................x",
   "................................x",
   "xxxxxxxxxxxxxxxx................x",
   "xxxxxxxxxxxxxxxx................x",
   "..............................xxx"]

/-- test/test_checked_modulus.hpp:20 -/
def t_cModS : List String :=
  ["!!!!!!!!!",
   "!!!!!!!!!",
   "!!!.0!.-!",
   "!!...!...",
   "!!...!...",
   "!!000!000",
   "!!...!...",
   "!!...!...",
   "!!!..!.+!"]

/-- test/test_checked_modulus.hpp:33 -/
def t_cModU : List String :=
  ["!!!!!!!",
   "!!!!!!!",
   "!!!.0!!",
   "!!...!.",
   "!!...!.",
   "!!000!0",
   "!!!-.!!"]

/-- test/test_left_shift_native_results.hpp:12 -/
def t_shlN : List String :=
  [".xxx.xxx.xxx.xxx.xxx.xxx.xxx.xxx.",
   ".xxx.xxx.xxx.xxx.xxx.xxx.xxx.xxx.",
   "xxxxxxxxxxxxxxxxxxxxxxxxxxxxxxxx.",
   "xxxxxxxxxxxxxxxxxxxxxxxxxxxxxxxx.",
   ".xxx.xxx.xxx.xxx.xxx.xxx.xxx.xxx.",
   ".xxx.xxx.xxx.xxx.xxx.xxx.xxx.xxx.",
   "xxxxxxxxxxxxxxxxxxxxxxxxxxxxxxxx.",
   "xxxxxxxxxxxxxxxxxxxxxxxxxxxxxxxx.",
   ".xxx.xxx.xxx.xxx.xxx.xxx.xxx.xxx.",
   "xxxxxxxxxxxxxxxxxxxxxxxxxxxxxxxx.",
   "xxxxxxxxxxxxxxxxxxxxxxxxxxxxxxxx.",
   "xxxxxxxxxxxxxxxxxxxxxxxxxxxxxxxx.",
   ".xxx.xxx.xxx.xxx.xxx.xxx.xxx.xxx.",
   "xxxxxxxxxxxxxxxxxxxxxxxxxxxxxxxx.",
   "xxxxxxxxxxxxxxxxxxxxxxxxxxxxxxxx.",
   "xxxxxxxxxxxxxxxxxxxxxxxxxxxxxxxx.",
   ".xxx.xxx.xxx.xxx.xxx.xxx.xxx.xxx.",
   ".xxx.xxx.xxx.xxx.xxx.xxx.xxx.xxx.",
   ".xxx.xxx.xxx.xxx.xxx.xxx.xxx.xxx.",
   ".xxx.xxx.xxx.xxx.xxx.xxx.xxx.xxx.",
   ".xxx.xxx.xxx.xxx.xxx.xxx.xxx.xxx.",
   ".xxx.xxx.xxx.xxx.xxx.xxx.xxx.xxx.",
   ".xxx.xxx.xxx.xxx.xxx.xxx.xxx.xxx.",
   ".xxx.xxx.xxx.xxx.xxx.xxx.xxx.xxx.",
   ".xxx.xxx.xxx.xxx.xxx.xxx.xxx.xxx.",
   ".xxx.xxx.xxx.xxx.xxx.xxx.xxx.xxx.",
   "xxxxxxxxxxxxxxxxxxxxxxxxxxxxxxxx.",
   "xxxxxxxxxxxxxxxxxxxxxxxxxxxxxxxx.",
   ".xxx.xxx.xxx.xxx.xxx.xxx.xxx.xxx.",
   ".xxx.xxx.xxx.xxx.xxx.xxx.xxx.xxx.",
   "xxxxxxxxxxxxxxxxxxxxxxxxxxxxxxxx.",
   "xxxxxxxxxxxxxxxxxxxxxxxxxxxxxxxx.",
   ".xxx.xxx.xxx.xxx.xxx.xxx.xxx.xxx."]

/-- test/test_left_shift_automatic_results.hpp:16 -/
def t_shlA : List String :=
  [".xxx.xxx.xxx.xxx.xxx.xxx.xxx.xxx.",
   ".xxx.xxx.xxx.xxx.xxx.xxx.xxx.xxx.",
   "xxxxxxxxxxxxxxxxxxxxxxxxxxxxxxxx.",
   "xxxxxxxxxxxxxxxxxxxxxxxxxxxxxxxx.",
   ".xxx.xxx.xxx.xxx.xxx.xxx.xxx.xxx.",
   ".xxx.xxx.xxx.xxx.xxx.xxx.xxx.xxx.",
   "xxxxxxxxxxxxxxxxxxxxxxxxxxxxxxxx.",
   "xxxxxxxxxxxxxxxxxxxxxxxxxxxxxxxx.",
   ".xxx.xxx.xxx.xxx.xxx.xxx.xxx.xxx.",
   ".xxx.xxx.xxx.xxx.xxx.xxx.xxx.xxx.",
   "xxxxxxxxxxxxxxxxxxxxxxxxxxxxxxxx.",
   "xxxxxxxxxxxxxxxxxxxxxxxxxxxxxxxx.",
   ".xxx.xxx.xxx.xxx.xxx.xxx.xxx.xxx.",
   "xxxxxxxxxxxxxxxxxxxxxxxxxxxxxxxx.",
   "xxxxxxxxxxxxxxxxxxxxxxxxxxxxxxxx.",
   "xxxxxxxxxxxxxxxxxxxxxxxxxxxxxxxx.",
   ".xxx.xxx.xxx.xxx.xxx.xxx.xxx.xxx.",
   ".xxx.xxx.xxx.xxx.xxx.xxx.xxx.xxx.",
   ".xxx.xxx.xxx.xxx.xxx.xxx.xxx.xxx.",
   ".xxx.xxx.xxx.xxx.xxx.xxx.xxx.xxx.",
   ".xxx.xxx.xxx.xxx.xxx.xxx.xxx.xxx.",
   ".xxx.xxx.xxx.xxx.xxx.xxx.xxx.xxx.",
   ".xxx.xxx.xxx.xxx.xxx.xxx.xxx.xxx.",
   ".xxx.xxx.xxx.xxx.xxx.xxx.xxx.xxx.",
   ".xxx.xxx.xxx.xxx.xxx.xxx.xxx.xxx.",
   ".xxx.xxx.xxx.xxx.xxx.xxx.xxx.xxx.",
   ".xxx.xxx.xxx.xxx.xxx.xxx.xxx.xxx.",
   ".xxx.xxx.xxx.xxx.xxx.xxx.xxx.xxx.",
   ".xxx.xxx.xxx.xxx.xxx.xxx.xxx.xxx.",
   ".xxx.xxx.xxx.xxx.xxx.xxx.xxx.xxx.",
   "xxxxxxxxxxxxxxxxxxxxxxxxxxxxxxxx.",
   "xxxxxxxxxxxxxxxxxxxxxxxxxxxxxxxx.",
   ".xxx.xxx.xxx.xxx.xxx.xxx.xxx.xxx."]

/-- test/test_checked_left_shift.hpp:23 -/
def t_cShlS : List String :=
  ["!!!!!!!!!",
   "!!!!!!!!!",
   "!!++++++!",
   "!!+++....",
   "!!++.....",
   ".........",
   "!!--.....",
   "!!---....",
   "!!------!"]

/-- test/test_checked_left_shift.hpp:36 -/
def t_cShlU : List String :=
  ["!!!!!!!",
   "!!!!!!!",
   "!!++++!",
   "!!+++..",
   "!!++...",
   ".......",
   "!!----!"]

/-- test/test_right_shift_native_results.hpp:12 -/
def t_shrN : List String :=
  [".xxx.xxx.xxx.xxx.xxx.xxx.xxx.xxx.",
   ".xxx.xxx.xxx.xxx.xxx.xxx.xxx.xxx.",
   "xxxxxxxxxxxxxxxxxxxxxxxxxxxxxxxxx",
   "xxxxxxxxxxxxxxxxxxxxxxxxxxxxxxxxx",
   ".xxx.xxx.xxx.xxx.xxx.xxx.xxx.xxx.",
   ".xxx.xxx.xxx.xxx.xxx.xxx.xxx.xxx.",
   "xxxxxxxxxxxxxxxxxxxxxxxxxxxxxxxxx",
   "xxxxxxxxxxxxxxxxxxxxxxxxxxxxxxxxx",
   ".xxx.xxx.xxx.xxx.xxx.xxx.xxx.xxx.",
   ".xxx.xxx.xxx.xxx.xxx.xxx.xxx.xxx.",
   "xxxxxxxxxxxxxxxxxxxxxxxxxxxxxxxxx",
   "xxxxxxxxxxxxxxxxxxxxxxxxxxxxxxxxx",
   ".xxx.xxx.xxx.xxx.xxx.xxx.xxx.xxx.",
   ".xxx.xxx.xxx.xxx.xxx.xxx.xxx.xxx.",
   "xxxxxxxxxxxxxxxxxxxxxxxxxxxxxxxxx",
   "xxxxxxxxxxxxxxxxxxxxxxxxxxxxxxxxx",
   ".xxx.xxx.xxx.xxx.xxx.xxx.xxx.xxx.",
   ".xxx.xxx.xxx.xxx.xxx.xxx.xxx.xxx.",
   ".xxx.xxx.xxx.xxx.xxx.xxx.xxx.xxx.",
   ".xxx.xxx.xxx.xxx.xxx.xxx.xxx.xxx.",
   ".xxx.xxx.xxx.xxx.xxx.xxx.xxx.xxx.",
   ".xxx.xxx.xxx.xxx.xxx.xxx.xxx.xxx.",
   ".xxx.xxx.xxx.xxx.xxx.xxx.xxx.xxx.",
   ".xxx.xxx.xxx.xxx.xxx.xxx.xxx.xxx.",
   ".xxx.xxx.xxx.xxx.xxx.xxx.xxx.xxx.",
   ".xxx.xxx.xxx.xxx.xxx.xxx.xxx.xxx.",
   ".xxx.xxx.xxx.xxx.xxx.xxx.xxx.xxx.",
   ".xxx.xxx.xxx.xxx.xxx.xxx.xxx.xxx.",
   ".xxx.xxx.xxx.xxx.xxx.xxx.xxx.xxx.",
   ".xxx.xxx.xxx.xxx.xxx.xxx.xxx.xxx.",
   ".xxx.xxx.xxx.xxx.xxx.xxx.xxx.xxx.",
   ".xxx.xxx.xxx.xxx.xxx.xxx.xxx.xxx.",
   ".xxx.xxx.xxx.xxx.xxx.xxx.xxx.xxx."]

/-- test/test_right_shift_automatic_results.hpp:12 -/
def t_shrA : List String :=
  [".xxx.xxx.xxx.xxx.xxx.xxx.xxx.xxx.",
   ".xxx.xxx.xxx.xxx.xxx.xxx.xxx.xxx.",
   "xxxxxxxxxxxxxxxxxxxxxxxxxxxxxxxxx",
   "xxxxxxxxxxxxxxxxxxxxxxxxxxxxxxxxx",
   ".xxx.xxx.xxx.xxx.xxx.xxx.xxx.xxx.",
   ".xxx.xxx.xxx.xxx.xxx.xxx.xxx.xxx.",
   "xxxxxxxxxxxxxxxxxxxxxxxxxxxxxxxxx",
   "xxxxxxxxxxxxxxxxxxxxxxxxxxxxxxxxx",
   ".xxx.xxx.xxx.xxx.xxx.xxx.xxx.xxx.",
   ".xxx.xxx.xxx.xxx.xxx.xxx.xxx.xxx.",
   "xxxxxxxxxxxxxxxxxxxxxxxxxxxxxxxxx",
   "xxxxxxxxxxxxxxxxxxxxxxxxxxxxxxxxx",
   ".xxx.xxx.xxx.xxx.xxx.xxx.xxx.xxx.",
   ".xxx.xxx.xxx.xxx.xxx.xxx.xxx.xxx.",
   "xxxxxxxxxxxxxxxxxxxxxxxxxxxxxxxxx",
   "xxxxxxxxxxxxxxxxxxxxxxxxxxxxxxxxx",
   ".xxx.xxx.xxx.xxx.xxx.xxx.xxx.xxx.",
   ".xxx.xxx.xxx.xxx.xxx.xxx.xxx.xxx.",
   ".xxx.xxx.xxx.xxx.xxx.xxx.xxx.xxx.",
   ".xxx.xxx.xxx.xxx.xxx.xxx.xxx.xxx.",
   ".xxx.xxx.xxx.xxx.xxx.xxx.xxx.xxx.",
   ".xxx.xxx.xxx.xxx.xxx.xxx.xxx.xxx.",
   ".xxx.xxx.xxx.xxx.xxx.xxx.xxx.xxx.",
   ".xxx.xxx.xxx.xxx.xxx.xxx.xxx.xxx.",
   ".xxx.xxx.xxx.xxx.xxx.xxx.xxx.xxx.",
   ".xxx.xxx.xxx.xxx.xxx.xxx.xxx.xxx.",
   ".xxx.xxx.xxx.xxx.xxx.xxx.xxx.xxx.",
   ".xxx.xxx.xxx.xxx.xxx.xxx.xxx.xxx.",
   ".xxx.xxx.xxx.xxx.xxx.xxx.xxx.xxx.",
   ".xxx.xxx.xxx.xxx.xxx.xxx.xxx.xxx.",
   ".xxx.xxx.xxx.xxx.xxx.xxx.xxx.xxx.",
   ".xxx.xxx.xxx.xxx.xxx.xxx.xxx.xxx.",
   ".xxx.xxx.xxx.xxx.xxx.xxx.xxx.xxx."]

/-- test/test_checked_right_shift.hpp:23 -/
def t_cShrS : List String :=
  ["!!!!!!!!!",
   "!!!!!!!!!",
   "!!!++++++",
   "!!....+++",
   "!!.....++",
   ".........",
   "!!.....--",
   "!!....---",
   "!!!------"]

/-- test/test_checked_right_shift.hpp:36 -/
def t_cShrU : List String :=
  ["!!!!!!!",
   "!!!!!!!",
   "!!!++++",
   "!!....+",
   "!!....+",
   ".......",
   "!!!----"]

/-- test/test_checked_and.hpp:20 -/
def t_cAndS : List String :=
  ["!!!!!!!!!",
   "!!!!!!!!!",
   "!!!!!!!!!",
   "!!!.....!",
   "!!!.....!",
   "!!!.....!",
   "!!!.....!",
   "!!!.....!",
   "!!!!!!!!!"]

/-- test/test_checked_and.hpp:33 -/
def t_cAndU : List String :=
  ["!!!!!!!",
   "!!!!!!!",
   "!!!!!!!",
   "!!!...!",
   "!!!...!",
   "!!!...!",
   "!!!!!!!"]

/-- test/test_checked_or.hpp:20 -/
def t_cOrS : List String :=
  ["!!!!!!!!!",
   "!!!!!!!!!",
   "!!!!!!!!!",
   "!!!.....!",
   "!!!.....!",
   "!!!.....!",
   "!!!.....!",
   "!!!.....!",
   "!!!!!!!!!"]

/-- test/test_checked_or.hpp:33 -/
def t_cOrU : List String :=
  ["!!!!!!!",
   "!!!!!!!",
   "!!!!!!!",
   "!!!...!",
   "!!!...!",
   "!!!...!",
   "!!!!!!!"]

/-- test/test_checked_xor.hpp:20 -/
def t_cXorS : List String :=
  ["!!!!!!!!!",
   "!!!!!!!!!",
   "!!!!!!!!!",
   "!!!.....!",
   "!!!.....!",
   "!!!.....!",
   "!!!.....!",
   "!!!.....!",
   "!!!!!!!!!"]

/-- test/test_checked_xor.hpp:33 -/
def t_cXorU : List String :=
  ["!!!!!!!",
   "!!!!!!!",
   "!!!!!!!",
   "!!!...!",
   "!!!...!",
   "!!!...!",
   "!!!!!!!"]

/-- test/test_checked_comparison.hpp:20 -/
def t_cCmpS : List String :=
  ["!!!!!!!!!",
   "!!!!!!!!!",
   "!!!>>>>>>",
   "!!<=>>>>>",
   "!!<<=>>>>",
   "!!<<<=>>>",
   "!!<<<<=>>",
   "!!<<<<<=>",
   "!!<<<<<<!"]

/-- test/test_checked_comparison.hpp:33 -/
def t_cCmpU : List String :=
  ["!!!!!!!",
   "!!!!!!!",
   "!!!>>>>",
   "!!<=>>>",
   "!!<<=>>",
   "!!<<<=>",
   "!!<<<<!"]

/-- test/test_compare_native.hpp:3 -/
def t_cmpN : List String :=
  ["=<>>=<>>=<>>=<>>=<<<=<<<=<<<=<<<>",
   ">=>>><>>><>>><>>>=<<><<<><<<><<<>",
   "<<=<<<><<<><<<><<<<<<<<<xxxxxxxx<",
   "<<>=<<>=<<>=<<>=<<<<<<<<xxxxxxxx<",
   "=<>>=<>>=<>>=<>>=<<<=<<<=<<<=<<<>",
   ">>>>>=>>><>>><>>>>>>>=<<><<<><<<>",
   "<<<<<<=<<<><<<><<<<<<<<<xxxxxxxx<",
   "<<>=<<>=<<>=<<>=<<<<<<<<xxxxxxxx<",
   "=<>>=<>>=<>>=<>>=<<<=<<<=<<<=<<<>",
   ">>>>>>>>>=>>><>>>>>>>>>>>=<<><<<>",
   "<<<<<<<<<<=<<<><<<<<<<<<xxxxxxxx<",
   "<<>=<<>=<<>=<<>=<<<<<<<<xxxxxxxx<",
   "=<>>=<>>=<>>=<>>=<<<=<<<=<<<=<<<>",
   ">>>>>>>>>>>>>=>>>>>>>>>>>>>>>=<<>",
   "<<<<<<<<<<<<<<=<<<<<<<<<<<<<xxxx<",
   "<<>=<<>=<<>=<<>=<<<<<<<<<<<<xxxx<",
   "=<>>=<>>=<>>=<>>=<<<=<<<=<<<=<<<>",
   ">=>>><>>><>>><>>>=<<><<<><<<><<<>",
   ">>>>><>>><>>><>>>>=<><<<><<<><<<>",
   ">>>>><>>><>>><>>>>>=><<<><<<><<<>",
   "=<>>=<>>=<>>=<>>=<<<=<<<=<<<=<<<>",
   ">>>>>=>>><>>><>>>>>>>=<<><<<><<<>",
   ">>>>>>>>><>>><>>>>>>>>=<><<<><<<>",
   ">>>>>>>>><>>><>>>>>>>>>=><<<><<<>",
   "=<xx=<xx=<xx=<>>=<<<=<<<=<<<=<<<>",
   ">>xx>>xx>=xx><>>>>>>>>>>>=<<><<<>",
   ">>xx>>xx>>xx><>>>>>>>>>>>>=<><<<>",
   ">>xx>>xx>>xx><>>>>>>>>>>>>>=><<<>",
   "=<xx=<xx=<xx=<xx=<<<=<<<=<<<=<<<>",
   ">>xx>>xx>>xx>=xx>>>>>>>>>>>>>=<<>",
   ">>xx>>xx>>xx>>xx>>>>>>>>>>>>>>=<>",
   ">>xx>>xx>>xx>>xx>>>>>>>>>>>>>>>=>",
   "<<>><<>><<>><<>><<<<<<<<<<<<<<<<="]

/-- test/test_compare_automatic.hpp:11 -/
def t_cmpA : List String :=
  ["=<>>=<>>=<>>=<>>=<<<=<<<=<<<=<xx>",
   ">=>>><>>><>>><>>>=<<><<<><<<><xx>",
   "<<=<<<><<<><<<><<<<<<<<<<<<<<<xx<",
   "<<>=<<>=<<>=<<>=<<<<<<<<<<<<<<xx<",
   "=<>>=<>>=<>>=<>>=<<<=<<<=<<<=<xx>",
   ">>>>>=>>><>>><>>>>>>>=<<><<<><xx>",
   "<<<<<<=<<<><<<><<<<<<<<<<<<<<<xx<",
   "<<>=<<>=<<>=<<>=<<<<<<<<<<<<<<xx<",
   "=<>>=<>>=<>>=<>>=<<<=<<<=<<<=<xx>",
   ">>>>>>>>>=>>><>>>>>>>>>>>=<<><xx>",
   "<<<<<<<<<<=<<<><<<<<<<<<<<<<<<xx<",
   "<<>=<<>=<<>=<<>=<<<<<<<<<<<<<<xx<",
   "=<>>=<>>=<>>=<>>=<<<=<<<=<<<=<xx>",
   ">>>>>>>>>>>>>=>>>>>>>>>>>>>>>=xx>",
   "<<<<<<<<<<<<<<=<<<<<<<<<<<<<<<xx<",
   "<<>=<<>=<<>=<<>=<<<<<<<<<<<<<<xx<",
   "=<>>=<>>=<>>=<>>=<<<=<<<=<<<=<<<>",
   ">=>>><>>><>>><>>>=<<><<<><<<><<<>",
   ">>>>><>>><>>><>>>>=<><<<><<<><<<>",
   ">>>>><>>><>>><>>>>>=><<<><<<><<<>",
   "=<>>=<>>=<>>=<>>=<<<=<<<=<<<=<<<>",
   ">>>>>=>>><>>><>>>>>>>=<<><<<><<<>",
   ">>>>>>>>><>>><>>>>>>>>=<><<<><<<>",
   ">>>>>>>>><>>><>>>>>>>>>=><<<><<<>",
   "=<>>=<>>=<>>=<>>=<<<=<<<=<<<=<<<>",
   ">>>>>>>>>=>>><>>>>>>>>>>>=<<><<<>",
   ">>>>>>>>>>>>><>>>>>>>>>>>>=<><<<>",
   ">>>>>>>>>>>>><>>>>>>>>>>>>>=><<<>",
   "=<>>=<>>=<>>=<>>=<<<=<<<=<<<=<<<>",
   ">>>>>>>>>>>>>=>>>>>>>>>>>>>>>=<<>",
   "xxxxxxxxxxxxxxxx>>>>>>>>>>>>>>=<x",
   "xxxxxxxxxxxxxxxx>>>>>>>>>>>>>>>=x",
   "<<>><<>><<>><<>><<<<<<<<<<<<<<xx="]

/-- test/test_checked_cast.hpp:17 -/
def t_castT : List String :=
  [".....xx..xx..xx...xx.xxx.xxx.xxx",
   ".........xx..xx.......xx.xxx.xxx",
   ".............xx...........xx.xxx",
   "..............................xx",
   "..xx.xxx.xxx.xxx.....xxx.xxx.xxx",
   "..xx..xx.xxx.xxx.........xxx.xxx",
   "..xx..xx..xx.xxx.............xxx",
   "..xx..xx..xx..xx................"]

/-- test/test_assignment.cpp:27 -/
def t_assignT : List String :=
  [".....xx..xx..xx...xx.xxx.xxx.xxx.",
   ".....xx..xx..xx...xx.xxx.xxx.xxx.",
   ".....xx..xx..xx...xx.xxx.xxx.xxx.",
   ".....xx..xx..xx...xx.xxx.xxx.xxx.",
   ".........xx..xx.......xx.xxx.xxx.",
   ".........xx..xx.......xx.xxx.xxx.",
   ".........xx..xx.......xx.xxx.xxx.",
   ".........xx..xx.......xx.xxx.xxx.",
   ".............xx...........xx.xxx.",
   ".............xx...........xx.xxx.",
   ".............xx...........xx.xxx.",
   ".............xx...........xx.xxx.",
   "..............................xx.",
   "..............................xx.",
   "..............................xx.",
   "..............................xx.",
   "..xx.xxx.xxx.xxx.....xxx.xxx.xxx.",
   "..xx.xxx.xxx.xxx.....xxx.xxx.xxx.",
   "..xx.xxx.xxx.xxx.....xxx.xxx.xxx.",
   "..xx.xxx.xxx.xxx.....xxx.xxx.xxx.",
   "..xx..xx.xxx.xxx.........xxx.xxx.",
   "..xx..xx.xxx.xxx.........xxx.xxx.",
   "..xx..xx.xxx.xxx.........xxx.xxx.",
   "..xx..xx.xxx.xxx.........xxx.xxx.",
   "..xx..xx..xx.xxx.............xxx.",
   "..xx..xx..xx.xxx.............xxx.",
   "..xx..xx..xx.xxx.............xxx.",
   "..xx..xx..xx.xxx.............xxx.",
   "..xx..xx..xx..xx.................",
   "..xx..xx..xx..xx.................",
   "..xx..xx..xx..xx.................",
   "..xx..xx..xx..xx.................",
   ".....xx..xx..xx...xx.xxx.xxx.xxx."]

/-- test/test_safe_compare.cpp:83 -/
def t_scmp : List String :=
  ["=<>>=<>>=<>>=<>>=<<<=<<<=<<<=<<<>",
   ">=>>><>>><>>><>>>=<<><<<><<<><<<>",
   "<<=<<<><<<><<<><<<<<<<<<<<<<<<<<<",
   "<<>=<<>=<<>=<<>=<<<<<<<<<<<<<<<<<",
   "=<>>=<>>=<>>=<>>=<<<=<<<=<<<=<<<>",
   ">>>>>=>>><>>><>>>>>>>=<<><<<><<<>",
   "<<<<<<=<<<><<<><<<<<<<<<<<<<<<<<<",
   "<<>=<<>=<<>=<<>=<<<<<<<<<<<<<<<<<",
   "=<>>=<>>=<>>=<>>=<<<=<<<=<<<=<<<>",
   ">>>>>>>>>=>>><>>>>>>>>>>>=<<><<<>",
   "<<<<<<<<<<=<<<><<<<<<<<<<<<<<<<<<",
   "<<>=<<>=<<>=<<>=<<<<<<<<<<<<<<<<<",
   "=<>>=<>>=<>>=<>>=<<<=<<<=<<<=<<<>",
   ">>>>>>>>>>>>>=>>>>>>>>>>>>>>>=<<>",
   "<<<<<<<<<<<<<<=<<<<<<<<<<<<<<<<<<",
   "<<>=<<>=<<>=<<>=<<<<<<<<<<<<<<<<",
   "=<>>=<>>=<>>=<>>=<<<=<<<=<<<=<<<>",
   ">=>>><>>><>>><>>>=<<><<<><<<><<<>",
   ">>>>><>>><>>><>>>>=<><<<><<<><<<>",
   ">>>>><>>><>>><>>>>>=><<<><<<><<<>",
   "=<>>=<>>=<>>=<>>=<<<=<<<=<<<=<<<>",
   ">>>>>=>>><>>><>>>>>>>=<<><<<><<<>",
   ">>>>>>>>><>>><>>>>>>>>=<><<<><<<>",
   ">>>>>>>>><>>><>>>>>>>>>=><<<><<<>",
   "=<>>=<>>=<>>=<>>=<<<=<<<=<<<=<<<>",
   ">>>>>>>>>=>>><>>>>>>>>>>>=<<><<<>",
   ">>>>>>>>>>>>><>>>>>>>>>>>>=<><<<>",
   ">>>>>>>>>>>>><>>>>>>>>>>>>>=><<<>",
   "=<>>=<>>=<>>=<>>=<<<=<<<=<<<=<<<>",
   ">>>>>>>>>>>>>=>>>>>>>>>>>>>>>=<<>",
   ">>>>>>>>>>>>>>>>>>>>>>>>>>>>>>=<>",
   ">>>>>>>>>>>>>>>>>>>>>>>>>>>>>>>=>",
   "<<>><<>><<>><<>><<<<<<<<<<<<<<<<="]

/-- outcome as the tests see it: value, exception or neither -/
inductive Seen | val | exc | undef | rejected
  deriving DecidableEq, Repr

def seen : Out α → Seen
  | .ret _ => .val
  | .thrown _ => .exc
  | .fault .illFormed => .rejected
  | .fault _ => .undef

def chars (t : List String) : List (List Char) := t.map String.toList

/-- the expected outcome of a cell: x an exception, otherwise a value -/
def expect (c : Char) : Seen := if c = 'x' then .exc else .val

/-- operand forms: safe op built-in, built-in op safe, safe op safe (e.g. test/test_add.hpp:26-143) -/
def forms (T U : ITy) : List (Opd × Opd) :=
  [(Opd.ofSafe T, Opd.ofBuiltin U), (Opd.ofBuiltin T, Opd.ofSafe U), (Opd.ofSafe T, Opd.ofSafe U)]

/-- cells of a table of value pairs where the outcome differs from the expected one -/
def differ (table : List String) (f : Opd → Opd → Int → Int → Out α) : List (Nat × Nat × List Seen) :=
  ((values.zip (chars table)).zipIdx).flatMap fun (((T, t), row), i) =>
    ((values.zip row).zipIdx).flatMap fun (((U, u), c), j) =>
      let r := (forms T U).map fun (A, B) => seen (f A B t u)
      if r.all (· = expect c) then [] else [(i, j, r)]

/-- a comparison table: `<` must answer the cell -/
def differCmp (table : List String) (pp : PP) : List (Nat × Nat) :=
  ((values.zip (chars table)).zipIdx).flatMap fun (((T, t), row), i) =>
    ((values.zip row).zipIdx).flatMap fun (((U, u), c), j) =>
      let ok := (forms T U).all fun (A, B) =>
        if c = 'x' then
          (seen (compare pp strictException .lt A B t u) = .exc) ∧ seen (compare pp strictException .eq A B t u) = .exc
        else compare pp strictException .lt A B t u = .ret (c = '<') ∧ compare pp strictException .eq A B t u = .ret (c = '=') ∧
          compare pp strictException .gt A B t u = .ret (c = '>')
      if ok then [] else [(i, j)]

/-- test/test_checked_values.hpp:20-31 and 40-49 -/
def crValues (R : ITy) : List CR :=
  [.err .range_error, .err .domain_error, .err .positive_overflow_error, .ok R.max, .ok 1, .ok 0] ++
  (if R.signed then [.ok (-1), .ok R.min] else []) ++ [.err .negative_overflow_error]

/-- test/test_checked_*.cpp: the character of the outcome; for shifts `!` means any error (test_checked_left_shift.cpp) -/
def crOk (c : Char) : Out CR → Bool
  | .ret (.ok v) => c = '.' ∨ (c = '0' ∧ v = 0)
  | .ret (.err .negative_overflow_error) => c = '-'
  | .ret (.err .positive_overflow_error) => c = '+'
  | .ret (.err .range_error) => c = '!'
  | _ => false

def crOkShl (c : Char) (o : Out CR) : Bool :=
  crOk c o || (c = '!' && match o with | .ret (.err _) => true | _ => false)

def differCR (s : Bool) (table : List String) (f : ITy → CR → CR → Out CR) (ok : Char → Out CR → Bool := crOk) :
    List (Nat × Nat × Nat) :=
  [0, 1, 2, 3].flatMap fun k =>
    let R : ITy := ⟨s, k⟩
    (((crValues R).zip (chars table)).zipIdx).flatMap fun ((t, row), i) =>
      (((crValues R).zip row).zipIdx).flatMap fun ((u, c), j) =>
        if ok c (f R t u) then [] else [(k, i, j)]

def differCRCmp (s : Bool) (table : List String) : List (Nat × Nat × Nat) :=
  [0, 1, 2, 3].flatMap fun k =>
    let R : ITy := ⟨s, k⟩
    (((crValues R).zip (chars table)).zipIdx).flatMap fun ((t, row), i) =>
      (((crValues R).zip row).zipIdx).flatMap fun ((u, c), j) =>
        let e (x : Char) : T3 := if c = '!' then .ind else T3.ofBool (c = x)
        if crLt R t u = e '<' ∧ crEq R t u = e '=' ∧ crGt R t u = e '>' then [] else [(k, i, j)]

/-- test/test_assignment.hpp: a safe value assigned to a built-in variable and to a safe one of the type of the row -/
def differAssign : List (Nat × Nat × List Seen) :=
  ((values.zip (chars t_assignT)).zipIdx).flatMap fun (((T, _), row), i) =>
    ((values.zip row).zipIdx).flatMap fun (((U, u), c), j) =>
      let r := [seen (toBuiltin strictException T (Opd.ofSafe U) u), seen (construct strictException (Opd.ofSafe T) (Opd.ofBuiltin U) u),
        seen (construct strictException (Opd.ofSafe T) (Opd.ofSafe U) u)]
      if r.all (· = expect c) then [] else [(i, j, r)]

/-- test/test_checked_cast.cpp -/
def differCast : List (Nat × Nat) :=
  (([i8, i16, i32, i64, u8, u16, u32, u64].zip (chars t_castT)).zipIdx).flatMap fun ((R, row), i) =>
    ((values.zip row).zipIdx).flatMap fun (((U, u), c), j) =>
      let ok : Bool := match checkedCast R U u with
        | .ret (.ok v) => c = '.' ∧ v = u
        | .ret (.err _) => c = 'x'
        | _ => false
      if ok then [] else [(i, j)]

/-- test/test_safe_compare.cpp -/
def differSafeCompare : List (Nat × Nat) :=
  ((values.zip (chars t_scmp)).zipIdx).flatMap fun (((T, t), row), i) =>
    ((values.zip row).zipIdx).flatMap fun (((U, u), c), j) =>
      if SafeCompare.lessThan T U t u = (c = '<' : Bool) ∧ SafeCompare.equal T U t u = (c = '=' : Bool) ∧
        SafeCompare.greaterThan T U t u = (c = '>' : Bool) then [] else [(i, j)]

/-- test/test_or.hpp etc.: no exception for any pair -/
def allDots : List String := List.replicate 33 (String.ofList (List.replicate 33 '.'))

#guard differ t_addN (arith .native strictException .add) = []
#guard differ t_addA (arith .automatic strictException .add) = []
#guard differ t_subN (arith .native strictException .sub) = []
#guard differ t_subA (arith .automatic strictException .sub) = []
#guard differ t_mulN (arith .native strictException .mul) = []
#guard differ t_mulA (arith .automatic strictException .mul) = []
#guard differ t_divN (arith .native strictException .div) = []
#guard differ t_divA (arith .automatic strictException .div) = []
#guard differ t_modN (arith .native strictException .mod) = []
#guard differ t_modA (arith .automatic strictException .mod) = []
#guard differ t_shlN (shl .native strictException) = []
#guard differ t_shlA (shl .automatic strictException) = []
#guard differ t_shrN (shr .native strictException) = []
#guard differ t_shrA (shr .automatic strictException) = []
#guard differ allDots (bitwise .native .bor) = []
#guard differ allDots (bitwise .native .band) = []
#guard differ allDots (bitwise .native .bxor) = []
#guard differ allDots (bitwise .automatic .bor) = []
#guard differ allDots (bitwise .automatic .band) = []
#guard differ allDots (bitwise .automatic .bxor) = []
#guard differCmp t_cmpN .native = []
#guard differCmp t_cmpA .automatic = []
#guard differAssign = []
#guard differCast = []
#guard differSafeCompare = []
#guard differCR true t_cAddS crAdd = [] ∧ differCR false t_cAddU crAdd = []
#guard differCR true t_cSubS crSub = [] ∧ differCR false t_cSubU crSub = []
#guard differCR true t_cMulS crMul = [] ∧ differCR false t_cMulU crMul = []
#guard differCR true t_cDivS crDiv = [] ∧ differCR false t_cDivU crDiv = []
#guard differCR true t_cModS crMod = [] ∧ differCR false t_cModU crMod = []
#guard differCR true t_cShrS crShr = [] ∧ differCR false t_cShrU crShr = []
#guard differCR true t_cOrS crOr = [] ∧ differCR false t_cOrU crOr = []
#guard differCR true t_cAndS crAnd = [] ∧ differCR false t_cAndU crAnd = []
#guard differCR true t_cXorS crXor = [] ∧ differCR false t_cXorU crXor = []
#guard differCR true t_cShlS crShl crOkShl = [] ∧ differCR false t_cShlU crShl crOkShl = []
#guard differCRCmp true t_cCmpS = [] ∧ differCRCmp false t_cCmpU = []

-- the comparison does find differences
#guard (differ t_addN (arith .native strictException .sub)).length = 325

end Verif.Conform
