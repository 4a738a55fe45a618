import Verif.RepoTests
import Verif.Dialog

/-!
# The project's own test of the dialogue, run on the model

A test of the model, not a proof; see `Verif.RepoTests`.
-/

namespace Gr1c

namespace RepoTests

/-- `/repo/tests/interaction_scripts/trivial_partwin_IN.txt`. -/
def partwinTyped : List Char := "var
numgoals
printgoal 0
printgoal 1
printgoal 2
printgoal 3
winning 1 0 1 1
winning 1 0 1 0
winning 0 0 0 0
sysnexta 0 0 0 0  0 0
sysnext 0 0 0 0  0 0  2
printegoals
blocksys 1 0
winning 0 0 0 0
refresh winning
winning 0 0 0 0
clear
refresh winning
winning 0 0 0 0
getindex 0 0 1 0  0
getindex 0 0 0 0  1
getindex 1 0 1 1  0
quit
".toList

/-- `/repo/tests/interaction_scripts/trivial_partwin_OUT.txt`. -/
def partwinTalk : List Char := ">>> x (0), ze (1), y (2), zs (3)
>>> 3
>>> (y&x)
>>> (!y)
>>> (!ze)
>>> Invalid mode: 3
>>> False
>>> True
>>> True
>>> 0 0
0 1
1 0
1 1
---
>>> 0 0
1 0
---
>>> x
---
>>> >>> True
>>> >>> False
>>> >>> >>> True
>>> 1
>>> 1
>>> Inf
>>> ".toList

-- `gr1c -i trivial_partwin.spc < trivial_partwin_IN.txt`, byte for byte
#guard talkMain (repoWorld specs_trivial_partwin) ["-i".toList, "s".toList] partwinTyped = .ok partwinTalk

end RepoTests

end Gr1c
