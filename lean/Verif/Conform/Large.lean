import Verif.Conform.UnitTests

/-!
# The two unit tests that take the interpreter longer
-/

namespace Fz.Conform

#guard passes 110 matmulTest
#guard passes 6 allocTest

end Fz.Conform
