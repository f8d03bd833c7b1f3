import Verif.Model.Trans
import Verif.Model.Heap
import Verif.Spec.HeapAlloc
/-!
The memory allocator of the run-time system: libcfa/src/heap.cfa.

Modelled: byte memory with the headers the allocator keeps in front of the blocks, the intrusive free lists and return
lists, the reserve of each heap, the heap master and `sbrk`, mapped blocks, aligned blocks with their second header, and
every allocation routine, by unboundedly many kernel threads.

Simplifications.
* The build without `__CFA_DEBUG__`; the counters of `__STATISTICS__` are left out; `OWNERSHIP`, `RETURNSPIN`
  and `FASTLOOKUP` are defined (heap.cfa:42-54).  64-bit words, 4096-byte pages.
* One step is a part of a routine with at most one access to data of other threads: the look at the return list, one
  critical section, or one system call.  The rest of a step touches data only that kernel thread uses (its heap and its
  blocks; the routines run without preemption: `libcfa_nopreempt`).
* The heap structures themselves are not in the byte memory.  The address of bucket `b` of heap `h` is `homeAddr h b`,
  a multiple of 64 (`CALIGN`), and a superblock of heaps has no end.
* `sbrk` gives out the addresses from `base` up to `sbrkLimit`, and only this allocator calls it.  `mmap` gives out pages
  from `sbrkLimit` up to 2^47 that no mapping uses, and fills them with 0.  Either may refuse.
-/
namespace Verif.HeapAlloc

/-- `size_t`: arithmetic is modulo this. -/
def W : Nat := 2 ^ 64

/-- `__page_size`: heap.cfa:369. -/
def page : Nat := 4096

/-- End of the addresses of `sbrk`, and begin of those of `mmap` (see the head of the file). -/
def sbrkLimit : Nat := 2 ^ 46

/-! ### Bytes and words -/

abbrev Mem := Nat → Nat

/-- Reading a 64-bit word, low byte first. -/
def load (m : Mem) (a : Nat) : Nat :=
  m a + m (a + 1) * 2 ^ 8 + m (a + 2) * 2 ^ 16 + m (a + 3) * 2 ^ 24 +
  m (a + 4) * 2 ^ 32 + m (a + 5) * 2 ^ 40 + m (a + 6) * 2 ^ 48 + m (a + 7) * 2 ^ 56

/-- Writing a 64-bit word. -/
def store (m : Mem) (a v : Nat) : Mem :=
  fun x => if a ≤ x ∧ x < a + 8 then v / 2 ^ (8 * (x - a)) % 256 else m x

/-- memset -/
def memset (m : Mem) (a v n : Nat) : Mem := fun x => if a ≤ x ∧ x < a + n then v else m x

/-- memcpy -/
def memcpy (m : Mem) (dst src n : Nat) : Mem := fun x => if dst ≤ x ∧ x < dst + n then m (src + (x - dst)) else m x

/-- ceiling2 for unsigned long int, `-( -n & -align )`, with `align` a power of two: bitmanip.hfa:91-118; and ceiling,
which divides: heap.cfa:877. -/
def ceiling2 (n al : Nat) : Nat := (n + (al - 1)) / al * al % W

/-- is_pow2: bitmanip.hfa:87. -/
def isPow2 (n : Nat) : Bool := n ≠ 0 && n &&& (n - 1) == 0

/-! ### Buckets -/

/-- bucketSizes: heap.cfa:325-343; sizeof(Heap.Storage) is 16. -/
def bucketSizes : List Nat := [
  16 + 16, 32 + 16, 48 + 16, 64 + 16,
  96 + 16, 112 + 16, 128 + 16,
  160, 192, 224, 256 + 16,
  320, 384, 448, 512 + 16,
  640, 768, 896, 1024 + 16,
  1536, 2048 + 16,
  2560, 3072, 3584, 4096 + 16,
  6144, 8192 + 16,
  9216, 10240, 11264, 12288, 13312, 14336, 15360, 16384 + 16,
  18432, 20480, 22528, 24576, 26624, 28672, 30720, 32768 + 16,
  36864, 40960, 45056, 49152, 53248, 57344, 61440, 65536 + 16,
  73728, 81920, 90112, 98304, 106496, 114688, 122880, 131072 + 16,
  147456, 163840, 180224, 196608, 212992, 229376, 245760, 262144 + 16,
  294912, 327680, 360448, 393216, 425984, 458752, 491520, 524288 + 16,
  655360, 786432, 917504, 1048576 + 16,
  1179648, 1310720, 1441792, 1572864, 1703936, 1835008, 1966080, 2097152 + 16,
  2621440, 3145728, 3670016, 4194304 + 16]

/-- The size of the blocks of a bucket: heap.cfa:467. -/
def bs (b : Nat) : Nat := bucketSizes.getD b 0

/-- The loop of Bsearchl: heap.cfa:119-126.  The first argument bounds the number of turns. -/
def bsearchLoop : Nat → Nat → Nat → Nat → Nat
  | 0, _, l, _ => l
  | f + 1, key, l, h =>
    if l < h then
      if bs ((l + h) / 2) < key then bsearchLoop f key ((l + h) / 2 + 1) h else bsearchLoop f key l ((l + h) / 2)
    else l

/-- Bsearchl: heap.cfa:117-128.  The key is an unsigned int. -/
def bsearchl (key dim : Nat) : Nat := bsearchLoop (dim + 1) (key % 2 ^ 32) 0 dim

/-- Element `i` of the array `lookup`: heap.cfa:403-408. -/
def lookup : Nat → Nat
  | 0 => 0
  | i + 1 => if i + 1 > bs (lookup i) then lookup i + 1 else lookup i

/-- LookupSizes: heap.cfa:310. -/
def lookupSizes : Nat := 65536 + 16

/-- The address of bucket `b` of heap `h` (see the head of the file). -/
def homeAddr (h b : Nat) : Nat := 64 * (1 + h * 91 + b)

/-- The heap a bucket belongs to, `homeManager`. -/
def homeHeap (home : Nat) : Nat := (home / 64 - 1) / 91

/-- The index of a bucket in its heap. -/
def homeBucket (home : Nat) : Nat := (home / 64 - 1) % 91

/-! ### The state -/

/-- What a routine has still to do with the block it gets from doMalloc. -/
inductive Frame
  /-- the rest of memalignNoStats: heap.cfa:1260-1277 -/
  | memalign (al size : Nat)
  /-- the rest of calloc: heap.cfa:1303-1323, and of cmemalign: heap.cfa:1445-1465 -/
  | calloc (size : Nat)
  /-- the rest of realloc from the copy on: heap.cfa:1407-1418, 1755-1765 -/
  | realloc (old osize size : Nat) (oz : Bool)
deriving DecidableEq

/-- What a routine has still to do after doFree. -/
inductive After
  | ret
  /-- resize: heap.cfa:1360 -/
  | mal (n : Nat) (fs : List Frame)
  /-- resize with an alignment: heap.cfa:1711 -/
  | memalign (al n : Nat)
  /-- realloc: heap.cfa:1412-1418, 1759-1765 -/
  | fin (naddr osize size : Nat) (oz : Bool)
deriving DecidableEq

/-- Where a kernel thread is. -/
inductive Pc
  | idle
  /-- start of doMalloc( n ) -/
  | mal (n : Nat) (fs : List Frame)
  /-- the free list is empty; before the look at the return list: heap.cfa:987 -/
  | look (n b : Nat) (fs : List Frame)
  /-- the return list was not empty: heap.cfa:989-992 -/
  | pull (n b : Nat) (fs : List Frame)
  /-- before manager_extend: heap.cfa:1009 -/
  | ext (n b : Nat) (fs : List Frame)
  /-- doMalloc (or memalignNoStats) returned this address -/
  | got (p : Nat) (fs : List Frame)
  /-- start of doFree( p ) -/
  | fr (p : Nat) (k : After)
  /-- the end of realloc: heap.cfa:1412-1418, 1759-1765 -/
  | fin (naddr osize size : Nat) (oz : Bool)
  /-- start of memalignNoStats( al, n ) -/
  | aln (al n : Nat)
deriving DecidableEq

inductive Status
  | ok
  /-- the program was stopped by abort -/
  | aborted
  /-- the allocator used an address that is not mapped, or unmapped memory it had not mapped -/
  | fault
deriving DecidableEq

structure St where
  status : Status := .ok
  mem : Mem := fun _ => 0
  /-- HeapMaster.heapBegin, heapEnd, heapRemaining, heapExpand, mmapStart, maxBucketsUsed -/
  heapBegin : Nat
  heapEnd : Nat
  heapRem : Nat := 0
  expand : Nat
  mmapStart : Nat
  maxB : Nat
  /-- the mappings of blocks: address and length -/
  maps : List (Nat × Nat) := []
  /-- heads of the free list and the return list of each bucket of each heap; 0 is the null pointer -/
  free : Nat → Nat → Nat := fun _ _ => 0
  ret : Nat → Nat → Nat := fun _ _ => 0
  /-- Heap.heapBuffer, heapReserve -/
  buf : Nat → Nat := fun _ => 0
  rsv : Nat → Nat := fun _ => 0
  /-- the number of heaps made, and the list of the heaps of threads that ended, freeHeapManagersList -/
  heaps : Nat := 0
  freeHeaps : List Nat := []
  /-- heapManager and heapManagerBootFlag of each kernel thread; a thread that is not running has no heap -/
  mgr : Nat → Option Nat := fun _ => none
  boot : Nat → Bool := fun _ => false
  pc : Nat → Pc := fun _ => .idle
  /-- the blocks clients hold -/
  live : Nat → Option Rec := fun _ => none
  /-- what the client of each thread may expect of the block its call is to return -/
  cur : Nat → Rec := fun _ => ⟨0, 16, false, fun _ => none⟩

/-! ### Headers -/

/-- What headers( ) finds: the address of the real header, whether the block is mapped, its bucket, the size of the block
and its alignment. -/
structure Hdr where
  hdr : Nat
  mapped : Bool
  home : Nat
  bsize : Nat
  align : Nat

/-- headers, fakeHeader: heap.cfa:757-810.  Masks of the low bits are written with `/` and `%`. -/
def headers (m : Mem) (p : Nat) : Hdr :=
  let w := load m (p - 16)
  if w % 8 = 0 then ⟨p - 16, false, w, bs (homeBucket w), 16⟩
  else
    let hdr := if w % 2 = 1 then p - 16 - load m (p - 8) else p - 16
    let al := if w % 2 = 1 then w - 1 else 16
    let v := load m hdr
    if v / 4 % 2 = 1 then ⟨hdr, true, 0, v / 8 * 8, al⟩
    else ⟨hdr, false, v / 8 * 8, bs (homeBucket (v / 8 * 8)), al⟩

/-- ZeroFillBit: heap.cfa:749. -/
def zeroBit (m : Mem) (hdr : Nat) : Bool := load m hdr / 2 % 2 == 1

/-- MarkZeroFilledBit: heap.cfa:751. -/
def markZero (m : Mem) (hdr : Nat) : Mem := if zeroBit m hdr then m else store m hdr (load m hdr + 2)

/-- ClearZeroFillBit: heap.cfa:750. -/
def clearZero (m : Mem) (hdr : Nat) : Mem := if zeroBit m hdr then store m hdr (load m hdr - 2) else m

/-- MarkAlignmentBit: heap.cfa:746. -/
def markAlign (al : Nat) : Nat := if al % 2 = 1 then al else al + 1

/-- DataStorage: heap.cfa:719. -/
def dataStorage (d : Hdr) (p : Nat) : Nat := d.bsize - (p - d.hdr)

/-- checkAlign: heap.cfa:723-727. -/
def goodAlign (al : Nat) : Bool := 16 ≤ al && isPow2 al

/-! ### doMalloc and doFree -/

/-- The end of doMalloc for a block of a bucket: heap.cfa:1026, 1059-1060. -/
def finish (s : St) (t h b a n : Nat) (fs : List Frame) : St :=
  { s with mem := store (store s.mem a (homeAddr h b)) (a + 8) n, pc := upd s.pc t (.got (a + 16) fs) }

/-- The bucket for a total size: heap.cfa:964-970. -/
def bucketFor (s : St) (tsize : Nat) : Nat := if tsize < lookupSizes then lookup tsize else bsearchl tsize s.maxB

/-- doMalloc up to the look at the return list, and the whole of it for a mapped block: heap.cfa:940-983, 1023-1060.
`ans` is the answer of `mmap`. -/
def doMal (s : St) (t h n : Nat) (fs : List Frame) (ans : Option Nat) : Option St :=
  let tsize := (n + 16) % W
  if tsize < s.mmapStart then
    let b := bucketFor s tsize
    let a := s.free h b
    if a = 0 then some { s with pc := upd s.pc t (.look n b fs) }
    else some (finish { s with free := upd s.free h (upd (s.free h) b (load s.mem a)) } t h b a n fs)
  else if n > W - 1 - page then some { s with pc := upd s.pc t (.got 0 fs) }
  else
    let len := ceiling2 tsize page
    match ans with
    | none => some { s with status := .aborted }
    | some a =>
      if len = 0 ∨ a % page ≠ 0 ∨ a < sbrkLimit ∨ 2 ^ 47 < a + len ∨ s.maps.any (fun r => r.1 < a + len && a < r.1 + r.2)
      then none
      else some { s with maps := (a, len) :: s.maps,
                         mem := store (store (memset s.mem a 0 len) a (len + 4)) (a + 8) n,
                         pc := upd s.pc t (.got (a + 16) fs) }

/-- Taking over the return list: heap.cfa:989-1004. -/
def doPull (s : St) (t h b n : Nat) (fs : List Frame) : St :=
  let a := s.ret h b
  finish { s with ret := upd s.ret h (upd (s.ret h) b 0), free := upd s.free h (upd (s.free h) b (load s.mem a)) }
    t h b a n fs

/-- The remaining reserve goes to the free list of a smaller size: heap.cfa:857-875.  The value from `lookup` is
overwritten by that of the search (an `else` is missing), which does not matter. -/
def dropReserve (s : St) (h : Nat) : St :=
  let rem := s.rsv h
  if rem % 2 ^ 32 ≥ bs 0 then
    let b0 := bsearchl rem s.maxB
    let b := if bs b0 > rem then b0 - 1 else b0
    { s with mem := store s.mem (s.buf h) (s.free h b), free := upd s.free h (upd (s.free h) b (s.buf h)) }
  else s

/-- master_extend: heap.cfa:813-846.  `none`: abort, since there is no memory or since mprotect refuses an
address that is not that of a page.  Otherwise the block. -/
def masterExtend (s : St) (size : Nat) (grant : Bool) : Option (Nat × St) :=
  if s.heapRem < size then
    let inc := ceiling2 (if size > s.expand then size else s.expand) 16
    if grant && (s.heapEnd + s.heapRem) % page == 0 && s.heapEnd + s.heapRem + inc ≤ sbrkLimit then
      some (s.heapEnd, { s with heapRem := s.heapRem + inc - size, heapEnd := s.heapEnd + size })
    else none
  else some (s.heapEnd, { s with heapRem := s.heapRem - size, heapEnd := s.heapEnd + size })

/-- manager_extend and the end of doMalloc: heap.cfa:850-887, 1009. -/
def doExt (s : St) (t h b n : Nat) (fs : List Frame) (grant : Bool) : St :=
  let size := bs b
  if s.rsv h < size then
    let s1 := dropReserve s h
    let inc := ceiling2 (if size > s1.expand / 10 then size else s1.expand / 10) 16
    match masterExtend s1 inc grant with
    | none => { s with status := .aborted }
    | some (a, s2) => finish { s2 with buf := upd s2.buf h (a + size), rsv := upd s2.rsv h (inc - size) } t h b a n fs
  else finish { s with buf := upd s.buf h (s.buf h + size), rsv := upd s.rsv h (s.rsv h - size) } t h b (s.buf h) n fs

/-- What follows doFree. -/
def afterPc : After → Pc
  | .ret => .idle
  | .mal n fs => .mal n fs
  | .memalign al n => .aln al n
  | .fin p osize size oz => .fin p osize size oz

/-- doFree: heap.cfa:1077-1189. -/
def doFree (s : St) (t h p : Nat) (k : After) : St :=
  let d := headers s.mem p
  if d.mapped then
    if (d.hdr, d.bsize) ∈ s.maps then
      { s with maps := s.maps.filter (· ≠ (d.hdr, d.bsize)), pc := upd s.pc t (afterPc k) }
    else { s with status := .fault }
  else
    let h' := homeHeap d.home
    let b := homeBucket d.home
    if h = h' then
      { s with mem := store s.mem d.hdr (s.free h b), free := upd s.free h (upd (s.free h) b d.hdr),
               pc := upd s.pc t (afterPc k) }
    else
      { s with mem := store s.mem d.hdr (s.ret h' b), ret := upd s.ret h' (upd (s.ret h') b d.hdr),
               pc := upd s.pc t (afterPc k) }

/-! ### The rest of the routines -/

/-- memalignNoStats up to doMalloc: heap.cfa:1241-1257. -/
def memalignStart (s : St) (t al n : Nat) (fs : List Frame) : St :=
  if ¬ goodAlign al then { s with status := .aborted }
  else if al ≤ 16 ∨ n = 0 then { s with pc := upd s.pc t (.mal n fs) }
  else { s with pc := upd s.pc t (.mal ((n + al) % W) (.memalign al n :: fs)) }

/-- What is done with the address from doMalloc. -/
def doGot (s : St) (t p : Nat) : List Frame → St
  | [] => { s with pc := upd s.pc t .idle, live := if p = 0 then s.live else upd s.live p (some (s.cur t)) }
  | .memalign al size :: fs =>
    -- heap.cfa:1260-1277; a null pointer is not expected
    if p = 0 then { s with status := .fault }
    else
      let user := ceiling2 (p + 16) al
      { s with mem := store (store (store s.mem (p - 8) size) (user - 8) (user - p)) (user - 16) (markAlign al),
               pc := upd s.pc t (.got user fs) }
  | .calloc size :: fs =>
    -- heap.cfa:1303-1323, 1445-1465
    if p = 0 then { s with pc := upd s.pc t (.got 0 fs) }
    else
      let d := headers s.mem p
      let m := if d.mapped then s.mem else memset s.mem p 0 size
      { s with mem := markZero m d.hdr, pc := upd s.pc t (.got p fs) }
  | .realloc old osize size oz :: _ =>
    -- heap.cfa:1407-1410, 1755-1757; a null pointer is not expected
    if p = 0 then { s with status := .fault }
    else { s with mem := memcpy s.mem p old (min osize size), pc := upd s.pc t (.fr old (.fin p osize size oz)) }

/-- The end of realloc: heap.cfa:1412-1418, 1759-1765. -/
def doFin (s : St) (t p osize size : Nat) (oz : Bool) : St :=
  let m := if oz then
      let m := markZero s.mem (headers s.mem p).hdr
      if size > osize then memset m (p + osize) 0 (size - osize) else m
    else s.mem
  { s with mem := m, pc := upd s.pc t (.got p []) }

/-- resize( oaddr, size ): heap.cfa:1331-1361. -/
def resize (s : St) (t p n : Nat) : St :=
  if p = 0 then { s with pc := upd s.pc t (.mal n []) }
  else
    let d := headers s.mem p
    let od := dataStorage d p
    if d.align = 16 ∧ n ≤ od ∧ od ≤ n * 2 % W then
      { s with mem := store (clearZero s.mem d.hdr) (d.hdr + 8) n, pc := upd s.pc t (.got p []) }
    else { s with pc := upd s.pc t (.fr p (.mal n [])) }

/-- realloc( oaddr, size ): heap.cfa:1366-1405. -/
def realloc (s : St) (t p n : Nat) : St :=
  if p = 0 then { s with pc := upd s.pc t (.mal n []) }
  else
    let d := headers s.mem p
    let od := dataStorage d p
    let osize := load s.mem (d.hdr + 8)
    let oz := zeroBit s.mem d.hdr
    if n ≤ od ∧ od ≤ n * 2 % W then
      let m := store s.mem (d.hdr + 8) n
      { s with mem := if oz ∧ n > osize then memset m (p + osize) 0 (n - osize) else m, pc := upd s.pc t (.got p []) }
    else if d.align ≤ 16 then { s with pc := upd s.pc t (.mal n [.realloc p osize n oz]) }
    else memalignStart s t d.align n [.realloc p osize n oz]

/-- When resize and realloc with an alignment keep an aligned block: heap.cfa:1681-1683, 1732-1734. -/
def luckyMatch (p oalign al : Nat) : Bool := p % al == 0 && (oalign ≤ al || (oalign ≥ al && oalign ≤ 256))

/-- resize( oaddr, nalign, size ): heap.cfa:1666-1712. -/
def resizeAl (s : St) (t p al n : Nat) : St :=
  if p = 0 then memalignStart s t al n []
  else
    let w := load s.mem (p - 16)
    let rest (s : St) : St := { s with pc := upd s.pc t (.fr p (.memalign al n)) }
    if w % 2 = 1 then
      if ¬ goodAlign al then { s with status := .aborted }
      else if luckyMatch p (w - 1) al then
        let s' := { s with mem := store s.mem (p - 16) (markAlign al) }
        let d := headers s'.mem p
        let od := dataStorage d p
        if n ≤ od ∧ od ≤ n * 2 % W then
          { s' with mem := store (clearZero s'.mem d.hdr) (d.hdr + 8) n, pc := upd s.pc t (.got p []) }
        else rest s'
      else rest s
    else if al = 16 then resize s t p n
    else rest s

/-- realloc( oaddr, nalign, size ): heap.cfa:1715-1753. -/
def reallocAl (s : St) (t p al n : Nat) : St :=
  if p = 0 then memalignStart s t al n []
  else
    let w := load s.mem (p - 16)
    let rest (s : St) : St :=
      let d := headers s.mem p
      memalignStart s t al n [.realloc p (load s.mem (d.hdr + 8)) n (zeroBit s.mem d.hdr)]
    if w % 2 = 1 then
      if ¬ goodAlign al then { s with status := .aborted }
      else if luckyMatch p (w - 1) al then realloc { s with mem := store s.mem (p - 16) (markAlign al) } t p n
      else rest s
    else if al = 16 then realloc s t p n
    else rest s

/-! ### Calls of clients -/

/-- The start of a routine: heap.cfa:1287-1301, 1423-1443, 1503-1513, 1769-1771 and the definitions above.  free of the
null pointer does nothing; sizes of arrays are products of type size_t. -/
def begin (s : St) (t : Nat) : Req → St
  | .malloc n => { s with pc := upd s.pc t (.mal n []) }
  | .aalloc d e => { s with pc := upd s.pc t (.mal (d * e % W) []) }
  | .calloc d e => { s with pc := upd s.pc t (.mal (d * e % W) [.calloc (d * e % W)]) }
  | .memalign al n => memalignStart s t al n []
  | .amemalign al d e => memalignStart s t al (d * e % W) []
  | .cmemalign al d e => memalignStart s t al (d * e % W) [.calloc (d * e % W)]
  | .resize p n => resize s t p n
  | .realloc p n => realloc s t p n
  | .reallocarray p d e => realloc s t p (d * e % W)
  | .resizeAl p al n => resizeAl s t p al n
  | .reallocAl p al n => reallocAl s t p al n
  | .reallocarrayAl p al d e => reallocAl s t p al (d * e % W)
  | .free p => if p = 0 then s else { s with pc := upd s.pc t (.fr p .ret) }

/-! ### Steps -/

inductive Ev
  /-- a kernel thread starts: heapManagerCtor -/
  | start (t : Nat)
  /-- a kernel thread ends: heapManagerDtor -/
  | exit (t : Nat)
  /-- a client calls a routine -/
  | call (t : Nat) (r : Req)
  /-- the next step of a routine; `ans` is the answer of the system call in it, if it makes one -/
  | run (t : Nat) (ans : Option Nat)
  /-- a client writes byte `i` of a block it holds -/
  | write (p i v : Nat)
  /-- the two assignments of setMmapStart: heap.cfa:691-701, from mallopt: heap.cfa:1619-1629 -/
  | mmapStart (v : Nat)
  | maxBuckets
  /-- both assignments, with no step of another thread between them -/
  | threshold (v : Nat)
  /-- mallopt( M_TOP_PAD, v ): heap.cfa:1622-1624 -/
  | topPad (v : Nat)
deriving DecidableEq

/-- A step of the thread in a routine. -/
def Ev.isStepOf (t : Nat) : Ev → Bool
  | .run t' _ => t' == t
  | _ => false

/-- heapManagerCtor and getHeap: heap.cfa:417-501.  heapManagerBootFlag is set for a new heap only (line 476). -/
def doStart (s : St) (t : Nat) : Option St :=
  if s.mgr t ≠ none then none
  else match s.freeHeaps with
    | h :: hs => some { s with freeHeaps := hs, mgr := upd s.mgr t (some h), boot := upd s.boot t false }
    | [] =>
      if s.heaps < 2 ^ 40 then
        some { s with heaps := s.heaps + 1, mgr := upd s.mgr t (some s.heaps), boot := upd s.boot t true }
      else some { s with status := .aborted }

/-- heapManagerDtor: heap.cfa:504-522. -/
def doExit (s : St) (t : Nat) : Option St :=
  match s.mgr t with
  | none => none
  | some h =>
    if s.pc t = .idle then
      some { s with mgr := upd s.mgr t none, boot := upd s.boot t false,
                    freeHeaps := if s.boot t then h :: s.freeHeaps else s.freeHeaps }
    else none

/-- A call.  A client gives back only a block it holds. -/
def doCall (s : St) (t : Nat) (r : Req) : Option St :=
  if s.mgr t = none ∨ s.pc t ≠ .idle ∨ r.args.any (W ≤ ·) then none
  else if r.old ≠ 0 ∧ (s.live r.old).isNone then none
  else
    let o := if r.old = 0 then none else s.live r.old
    some (begin { s with cur := upd s.cur t (promise r o),
                         live := if r.old = 0 then s.live else upd s.live r.old none } t r)

/-- A step of a routine. -/
def doRun (s : St) (t : Nat) (ans : Option Nat) : Option St :=
  match s.mgr t with
  | none => none
  | some h =>
    match s.pc t with
    | .idle => none
    | .mal n fs => doMal s t h n fs ans
    | .look n b fs =>
      if s.ret h b ≠ 0 then some { s with pc := upd s.pc t (.pull n b fs) }
      else some { s with pc := upd s.pc t (.ext n b fs) }
    | .pull n b fs => some (doPull s t h b n fs)
    | .ext n b fs => some (doExt s t h b n fs ans.isSome)
    | .got p fs => some (doGot s t p fs)
    | .fr p k => some (doFree s t h p k)
    | .fin p osize size oz => some (doFin s t p osize size oz)
    | .aln al n => some (memalignStart s t al n [])

/-- A client writes a byte. -/
def doWrite (s : St) (p i v : Nat) : Option St :=
  match s.live p with
  | none => none
  | some r =>
    if i < r.size ∧ v < 256 then
      some { s with mem := upd s.mem (p + i) v, live := upd s.live p (some { r with val := upd r.val i (some v) }) }
    else none

def next (s : St) (e : Ev) : Option St :=
  if s.status ≠ .ok then none
  else match e with
    | .start t => doStart s t
    | .exit t => doExit s t
    | .call t r => doCall s t r
    | .run t ans => doRun s t ans
    | .write p i v => doWrite s p i v
    | .mmapStart v => if v < page ∨ bs 90 < v then none else some { s with mmapStart := v }
    | .maxBuckets => some { s with maxB := bsearchl s.mmapStart 91 }
    | .threshold v => if v < page ∨ bs 90 < v then none else some { s with mmapStart := v, maxB := bsearchl v 91 }
    | .topPad v => if 2 ^ 31 ≤ v then none else some { s with expand := ceiling2 v page }

/-- heapMasterCtor: heap.cfa:364-412.  `base` is the program break: the call of sbrk in line 376 moves the break to a
multiple of 16, but returns the break as it was before. -/
def start (base expand mmapStart : Nat) : St :=
  { heapBegin := base, heapEnd := base, expand := expand, mmapStart := mmapStart, maxB := bsearchl mmapStart 91 }

/-! ### Reasonable programs -/

/-- The events of a reasonable program: no request comes near 2^64, and no thread runs between the two assignments of a change of the threshold. -/
def sane : Ev → Bool
  | .call _ q => q.bytes + q.alignArg + 2 ^ 48 ≤ W
  | .mmapStart _ => false
  | .maxBuckets => false
  | _ => true

/-- A step of a reasonable program. -/
def nextSane (s : St) (e : Ev) : Option St := if sane e then next s e else none

/-- heapMasterCtor starts with these values: heap.cfa:364-412. -/
def StartOk (brk expand thr : Nat) : Prop := brk % 16 = 0 ∧ 16 ≤ brk ∧ brk ≤ sbrkLimit ∧ expand < 2 ^ 62 ∧ thr ≤ bs 90

/-! ### Questions about a block -/

/-- malloc_alignment: heap.cfa:1517-1525. -/
def mallocAlignment (m : Mem) (p : Nat) : Nat :=
  if p = 0 then 16 else if load m (p - 16) % 2 = 1 then load m (p - 16) - 1 else 16

/-- RealHeader, where there is a second header: heap.cfa:711. -/
def realHeader (m : Mem) (p : Nat) : Nat := if load m (p - 16) % 2 = 1 then p - 16 - load m (p - 8) else p - 16

/-- malloc_zero_fill: heap.cfa:1529-1536. -/
def mallocZeroFill (m : Mem) (p : Nat) : Bool := if p = 0 then false else zeroBit m (realHeader m p)

/-- malloc_size: heap.cfa:1540-1547. -/
def mallocSize (m : Mem) (p : Nat) : Nat := if p = 0 then 0 else load m (realHeader m p + 8)

/-- malloc_usable_size: heap.cfa:1552-1560. -/
def mallocUsableSize (m : Mem) (p : Nat) : Nat := if p = 0 then 0 else dataStorage (headers m p) p

end Verif.HeapAlloc
