import Verif.Model.Objects
/-!
# The constructors with fixed counts
-/

namespace Argtable

variable {δ : Type}

/-- `arg_lit0`, arg_lit.c:84-86. -/
def argLit0 (so lo gl : Option CStr) : Hdr (Obj δ) := argLitn so lo 0 1 gl
/-- `arg_lit1`, arg_lit.c:88-90. -/
def argLit1 (so lo gl : Option CStr) : Hdr (Obj δ) := argLitn so lo 1 1 gl
/-- `arg_int0`, arg_int.c:249-251. -/
def argInt0 (so lo dt gl : Option CStr) : M (Hdr (Obj δ)) := argIntn so lo dt 0 1 gl
/-- `arg_int1`, arg_int.c:253-255. -/
def argInt1 (so lo dt gl : Option CStr) : M (Hdr (Obj δ)) := argIntn so lo dt 1 1 gl
/-- `arg_dbl0`, arg_dbl.c:109-111. -/
def argDbl0 (lc : Libc δ) (addr : Nat) (so lo dt gl : Option CStr) : M (Hdr (Obj δ)) :=
  argDbln lc addr so lo dt 0 1 gl
/-- `arg_dbl1`, arg_dbl.c:113-115. -/
def argDbl1 (lc : Libc δ) (addr : Nat) (so lo dt gl : Option CStr) : M (Hdr (Obj δ)) :=
  argDbln lc addr so lo dt 1 1 gl
/-- `arg_str0`, arg_str.c:99-101. -/
def argStr0 (so lo dt gl : Option CStr) : M (Hdr (Obj δ)) := argStrn so lo dt 0 1 gl
/-- `arg_str1`, arg_str.c:103-105. -/
def argStr1 (so lo dt gl : Option CStr) : M (Hdr (Obj δ)) := argStrn so lo dt 1 1 gl
/-- `arg_file0`, arg_file.c:156-158. -/
def argFile0 (so lo dt gl : Option CStr) : M (Hdr (Obj δ)) := argFilen so lo dt 0 1 gl
/-- `arg_file1`, arg_file.c:160-162. -/
def argFile1 (so lo dt gl : Option CStr) : M (Hdr (Obj δ)) := argFilen so lo dt 1 1 gl
/-- `arg_date0`, arg_date.c:114-116. -/
def argDate0 (lc : Libc δ) (so lo fm dt gl : Option CStr) : M (Hdr (Obj δ)) := argDaten lc so lo fm dt 0 1 gl
/-- `arg_date1`, arg_date.c:118-120. -/
def argDate1 (lc : Libc δ) (so lo fm dt gl : Option CStr) : M (Hdr (Obj δ)) := argDaten lc so lo fm dt 1 1 gl
/-- `arg_rex0`, arg_rex.c:212-214. -/
def argRex0 (so lo : Option CStr) (pat : CStr) (dt : Option CStr) (ic : Bool) (gl : Option CStr) :
    M (Hdr (Obj δ)) := argRexn so lo pat dt 0 1 ic gl
/-- `arg_rex1`, arg_rex.c:216-218. -/
def argRex1 (so lo : Option CStr) (pat : CStr) (dt : Option CStr) (ic : Bool) (gl : Option CStr) :
    M (Hdr (Obj δ)) := argRexn so lo pat dt 1 1 ic gl

end Argtable
