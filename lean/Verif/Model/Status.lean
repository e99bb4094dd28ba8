import Verif.C

/-!
# Model of the names and descriptions of status values (main.c, helper.c, status.h)

Simplified: strings are Lean strings, comparing them with `strcmp` is comparing them for equality, and `group` is a string
(it is never null in a status that the library returns).
-/

namespace Sp

/-- `status_t`. /repo/source/c/foreign/sph-sc-lib/sph-sp/status.h:10-13 -/
structure Status where
  id : Int
  group : String
  deriving DecidableEq

/-- `sph_helper_status_description`. The function ends without a return statement. Using the value of a call is undefined
behaviour. /repo/source/c/foreign/sph-sc-lib/sph-sp/helper.c:4-11 -/
def helperStatusDescription (_ : Status) : C String := .error .uninitialized

/-- `sp_status_description`, with the numbers from main.h:15-26.
/repo/source/c-precompiled/sph-sp/main.c:67-98 -/
def statusDescription (a : Status) : C String :=
  if a.group = "sp" then
    if a.id = 6 then .ok "end of file"
    else if a.id = 7 then .ok "input argument is of wrong type"
    else if a.id = 10 then .ok "not implemented"
    else if a.id = 8 then .ok "memory allocation error"
    else if a.id = 2 then .ok "invalid file write"
    else if a.id = 3 then .ok "invalid file read"
    else if a.id = 4 then .ok "unsupported format (only 32 bit float supported)"
    else if a.id = 5 then .ok "end of file"
    else if a.id = 9 then .ok "invalid argument"
    else .ok ""
  else if a.group = "sph" then helperStatusDescription a
  else .ok ""

/-- `sp_status_name`. /repo/source/c-precompiled/sph-sp/main.c:100-127 -/
def statusName (a : Status) : C String :=
  if a.group = "sp" then
    if a.id = 7 then .ok "input-type"
    else if a.id = 10 then .ok "not-implemented"
    else if a.id = 8 then .ok "memory"
    else if a.id = 2 then .ok "invalid-file-write"
    else if a.id = 3 then .ok "invalid-file-read"
    else if a.id = 4 then .ok "not-implemented"
    else if a.id = 5 then .ok "end-of-file"
    else if a.id = 9 then .ok "invalid-argument"
    else .ok "unknown"
  else .ok "unknown"

end Sp
