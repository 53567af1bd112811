import Verif.Base.Box

/-!
Model of `estl/rb_tree.hpp` and of `set` and `multiset` of `estl/set.hpp`: nodes with colour,
`left`, `right`, `parent` on a heap; every tree object owns a header node.

Simplifications.
* The comparison `lt` is a pure function, the same for all trees (so the exchange of the
  `compare_` members in `swap`, estl/rb_tree.hpp:642, is invisible; `Verif.Model.RbCmp`
  gives every tree its own).
* Constructing, copying and destroying an element touches nothing but the element; `new` does
  not fail and never returns an address used before.
* `count_` does not overflow (it would need `2^64` nodes); `erase_since` recurses without a limit
  on the stack.
* `const` and non-`const` overloads have the same bodies and are modelled once; so are
  `iterator` and `const_iterator`. `iterator` is the `node` pointer (estl/rb_tree.hpp:203).
-/

set_option backward.isDefEq.respectTransparency false

namespace Verif.Rb
open Verif
open Verif.Box (Slot upd)

/-- `rb_tree_color`, estl/rb_tree.hpp:8-9. -/
inductive Color where
  | red
  | black
  deriving DecidableEq, Repr

/-- A node: the members of `rb_tree_node_base` (estl/rb_tree.hpp:44-47; null is `none`) and
`value` (82), which the header node does not have. -/
structure Rec (α : Type) where
  color : Color
  left : Option Nat
  right : Option Nat
  parent : Option Nat
  val : Option α

/-- The nodes that exist; the next address `new` returns; the nodes deleted so far, newest first;
the tree objects with `header_` and `count_` (estl/rb_tree.hpp:1002-1003). -/
structure St (α : Type) where
  heap : Nat → Option (Rec α)
  next : Nat
  freed : List Nat
  tree : Slot → Option (Nat × Nat)

variable {α : Type}

/-- Nothing exists (no code) (start of a program using estl/set.hpp). -/
def St.init : St α := ⟨fun _ => none, 0, [], fun _ => none⟩

/-- The node behind a pointer (every `->` of estl/rb_tree.hpp): undefined for null and for
deleted nodes. -/
def rd (s : St α) (p : Option Nat) : Res (Rec α) :=
  match p with
  | none => .ub
  | some a =>
    match s.heap a with
    | some r => .ok r
    | none => .ub

/-- `p->left`, estl/rb_tree.hpp:45. -/
def left (s : St α) (p : Option Nat) : Res (Option Nat) := do
  let r ← rd s p
  .ok r.left
/-- `p->right`, estl/rb_tree.hpp:46. -/
def right (s : St α) (p : Option Nat) : Res (Option Nat) := do
  let r ← rd s p
  .ok r.right
/-- `p->parent`, estl/rb_tree.hpp:47. -/
def parent (s : St α) (p : Option Nat) : Res (Option Nat) := do
  let r ← rd s p
  .ok r.parent
/-- `p->color`, estl/rb_tree.hpp:44; `is_black`, `is_red` (28-34). -/
def color (s : St α) (p : Option Nat) : Res Color := do
  let r ← rd s p
  .ok r.color

/-- `p && p->is_red()` (estl/rb_tree.hpp:389, 406); `!p || !p->is_red()` (482, 493-494, 499, 521-522,
527) is its negation. -/
def isRed (s : St α) (p : Option Nat) : Res Bool :=
  match p with
  | none => .ok false
  | some a => do
    let c ← color s (some a)
    .ok (c == .red)

/-- Assignment to a member of the node behind a pointer (estl/rb_tree.hpp:36-41, 340-549). -/
def wr (s : St α) (p : Option Nat) (f : Rec α → Rec α) : Res (St α) :=
  match p with
  | none => .ub
  | some a =>
    match s.heap a with
    | some r => .ok { s with heap := upd s.heap a (some (f r)) }
    | none => .ub

/-- `p->left = q`, estl/rb_tree.hpp:45. -/
def setLeft (s : St α) (p q : Option Nat) : Res (St α) := wr s p fun r => { r with left := q }
/-- `p->right = q`, estl/rb_tree.hpp:46. -/
def setRight (s : St α) (p q : Option Nat) : Res (St α) := wr s p fun r => { r with right := q }
/-- `p->parent = q`, estl/rb_tree.hpp:47. -/
def setParent (s : St α) (p q : Option Nat) : Res (St α) := wr s p fun r => { r with parent := q }
/-- `set_color_red`, `set_color_black`, estl/rb_tree.hpp:36-41. -/
def setColor (s : St α) (p : Option Nat) (c : Color) : Res (St α) := wr s p fun r => { r with color := c }

/-- `if (p) p->parent = q` (estl/rb_tree.hpp:344-346, 366-368, 444-445). -/
def setParentIf (s : St α) (p q : Option Nat) : Res (St α) :=
  match p with
  | some a => setParent s (some a) q
  | none => .ok s

/-- `if (p) p->set_color_black()` (estl/rb_tree.hpp:500-501, 508-509, 530-531, 538-539, 545-546). -/
def blackenIf (s : St α) (p : Option Nat) : Res (St α) :=
  match p with
  | some a => setColor s (some a) .black
  | none => .ok s

/-- `rb_tree_min`, estl/rb_tree.hpp:312-318; the same loop is in `increment` (168-171). -/
def treeMin : Nat → St α → Option Nat → Res (Option Nat)
  | 0, _, _ => .oof
  | f + 1, s, n => do
    let l ← left s n
    match l with
    | some a => treeMin f s (some a)
    | none => .ok n

/-- `rb_tree_max`, estl/rb_tree.hpp:320-326; the same loop is in `decrement` (188-191). -/
def treeMax : Nat → St α → Option Nat → Res (Option Nat)
  | 0, _, _ => .oof
  | f + 1, s, n => do
    let r ← right s n
    match r with
    | some a => treeMax f s (some a)
    | none => .ok n

/-- The loop of `increment`, estl/rb_tree.hpp:174-177. -/
def incUp : Nat → St α → Option Nat → Option Nat → Res (Option Nat × Option Nat)
  | 0, _, _, _ => .oof
  | f + 1, s, n, p => do
    let r ← right s p
    if r = n then do
      let pp ← parent s p
      incUp f s p pp
    else .ok (n, p)

/-- `increment`, estl/rb_tree.hpp:166-182. -/
def increment (fuel : Nat) (s : St α) (n : Option Nat) : Res (Option Nat) := do
  let r ← right s n
  match r with
  | some a => treeMin fuel s (some a)
  | none => do
    let p ← parent s n
    let (n, p) ← incUp fuel s n p
    let r ← right s n
    if r ≠ p then .ok p else .ok n

/-- The loop of `decrement` and what follows, estl/rb_tree.hpp:195-199. -/
def decUp : Nat → St α → Option Nat → Option Nat → Res (Option Nat)
  | 0, _, _, _ => .oof
  | f + 1, s, n, p => do
    let l ← left s p
    if n = l then do
      let pp ← parent s p
      decUp f s p pp
    else .ok p

/-- `decrement`, estl/rb_tree.hpp:184-201. -/
def decrement (fuel : Nat) (s : St α) (n : Option Nat) : Res (Option Nat) := do
  let p ← parent s n
  let pp ← parent s p
  let c ← color s n
  if pp = n ∧ c = .red then right s n
  else do
    let l ← left s n
    match l with
    | some a => treeMax fuel s (some a)
    | none => do
      let p ← parent s n
      decUp fuel s n p

/-- `rb_tree_node_is_lchild`, estl/rb_tree.hpp:307-310. -/
def isLchild (s : St α) (n : Option Nat) : Res Bool := do
  let p ← parent s n
  let l ← left s p
  .ok (n == l)

/-- The loop of `rb_tree_next`, estl/rb_tree.hpp:333-336. -/
def nextUp : Nat → St α → Option Nat → Res (Option Nat)
  | 0, _, _ => .oof
  | f + 1, s, n => do
    let b ← isLchild s n
    if b then parent s n
    else do
      let p ← parent s n
      nextUp f s p

/-- `rb_tree_next`, estl/rb_tree.hpp:328-337. -/
def treeNext (fuel : Nat) (s : St α) (n : Option Nat) : Res (Option Nat) := do
  let r ← right s n
  match r with
  | some a => treeMin fuel s (some a)
  | none => nextUp fuel s n

/-- Replace `node` by `q` in its parent or, if it is the root, in `root`, which is a reference to
`header_->parent` (estl/rb_tree.hpp:349-355, 371-377, 454-459, 468-473). -/
def relink (s : St α) (node q : Option Nat) (h : Nat) : Res (St α) := do
  let root ← parent s (some h)
  if node = root then setParent s (some h) q
  else do
    let b ← isLchild s node
    let np ← parent s node
    if b then setLeft s np q else setRight s np q

/-- `rb_tree_rotate_left(node, root)` with `root` the reference `header_->parent`,
estl/rb_tree.hpp:339-359. -/
def rotateLeft (s : St α) (node : Option Nat) (h : Nat) : Res (St α) := do
  let r ← right s node
  let rl ← left s r
  let s ← setRight s node rl
  let rl ← left s r
  let s ← setParentIf s rl node
  let np ← parent s node
  let s ← setParent s r np
  let s ← relink s node r h
  let s ← setLeft s r node
  setParent s node r

/-- `rb_tree_rotate_right(node, root)`, estl/rb_tree.hpp:361-381. -/
def rotateRight (s : St α) (node : Option Nat) (h : Nat) : Res (St α) := do
  let l ← left s node
  let lr ← right s l
  let s ← setLeft s node lr
  let lr ← right s l
  let s ← setParentIf s lr node
  let np ← parent s node
  let s ← setParent s l np
  let s ← relink s node l h
  let s ← setParent s node l
  setRight s l node

/-- The loop of `rb_tree_insert_rebalance`, estl/rb_tree.hpp:386-423. Line 400 sets the parent red
again where line 418 in the mirrored branch sets the grandparent red. -/
def insLoop : Nat → St α → Option Nat → Nat → Res (St α)
  | 0, _, _, _ => .oof
  | f + 1, s, n, h => do
    let root ← parent s (some h)
    if n = root then .ok s
    else do
      let p ← parent s n
      let pc ← color s p
      if pc ≠ .red then .ok s
      else do
        let b ← isLchild s p
        let g ← parent s p
        if b then do
          let u ← right s g
          let ur ← isRed s u
          if ur then do
            let s ← setColor s p .black
            let s ← setColor s u .black
            let p ← parent s n
            let n ← parent s p
            let s ← setColor s n .red
            insLoop f s n h
          else do
            let l ← isLchild s n
            let (s, n) ← (if !l then do
                let n ← parent s n
                let s ← rotateLeft s n h
                .ok (s, n)
              else .ok (s, n) : Res (St α × Option Nat))
            let p ← parent s n
            let s ← setColor s p .black
            let p ← parent s n
            let s ← setColor s p .red
            let p ← parent s n
            let g ← parent s p
            rotateRight s g h
        else do
          let u ← left s g
          let ur ← isRed s u
          if ur then do
            let s ← setColor s p .black
            let s ← setColor s u .black
            let p ← parent s n
            let n ← parent s p
            let s ← setColor s n .red
            insLoop f s n h
          else do
            let l ← isLchild s n
            let (s, n) ← (if l then do
                let n ← parent s n
                let s ← rotateRight s n h
                .ok (s, n)
              else .ok (s, n) : Res (St α × Option Nat))
            let p ← parent s n
            let s ← setColor s p .black
            let p ← parent s n
            let g ← parent s p
            let s ← setColor s g .red
            let p ← parent s n
            let g ← parent s p
            rotateLeft s g h

/-- `rb_tree_insert_rebalance`, estl/rb_tree.hpp:383-425. -/
def insertRebalance (fuel : Nat) (s : St α) (n : Option Nat) (h : Nat) : Res (St α) := do
  let s ← setColor s n .red
  let s ← insLoop fuel s n h
  let root ← parent s (some h)
  setColor s root .black

/-- `if (leftmost == z) leftmost = x == nullptr ? xp : rb_tree_min(x);`, estl/rb_tree.hpp:475-476. -/
def fixMin (fuel : Nat) (s : St α) (x xp z : Option Nat) (h : Nat) : Res (St α) := do
  let e ← left s (some h)
  if e = z then do
    let m ← (if x = none then .ok xp else treeMin fuel s x : Res (Option Nat))
    setLeft s (some h) m
  else .ok s

/-- `if (rightmost == z) rightmost = x == nullptr ? xp : rb_tree_max(x);`, estl/rb_tree.hpp:477-478. -/
def fixMax (fuel : Nat) (s : St α) (x xp z : Option Nat) (h : Nat) : Res (St α) := do
  let e ← right s (some h)
  if e = z then do
    let m ← (if x = none then .ok xp else treeMax fuel s x : Res (Option Nat))
    setRight s (some h) m
  else .ok s

/-- The first part of `rb_tree_erase_rebalance`, estl/rb_tree.hpp:432-479: `z` is taken out of the
tree. Returns `x`, `xp` and `y`. `leftmost` and `rightmost` are references to `header_->left` and
`header_->right`. -/
def eraseUnlink (fuel : Nat) (s : St α) (z : Option Nat) (h : Nat) : Res (St α × Option Nat × Option Nat × Option Nat) := do
  let zl ← left s z
  let zr ← right s z
  let y ← (if zl = none ∨ zr = none then .ok z else treeNext fuel s z : Res (Option Nat))
  let yl ← left s y
  let yr ← right s y
  let x := if yl ≠ none then yl else yr
  if y ≠ z then do
    let zl ← left s z
    let s ← setParent s zl y
    let zl ← left s z
    let s ← setLeft s y zl
    let zr ← right s z
    let (s, xp) ← (if y ≠ zr then do
        let xp ← parent s y
        let s ← setParentIf s x xp
        let yp ← parent s y
        let s ← setLeft s yp x
        let zr ← right s z
        let s ← setRight s y zr
        let zr ← right s z
        let s ← setParent s zr y
        .ok (s, xp)
      else .ok (s, y) : Res (St α × Option Nat))
    let s ← relink s z y h
    let zp ← parent s z
    let s ← setParent s y zp
    let yc ← color s y
    let zc ← color s z
    let s ← setColor s y zc
    let s ← setColor s z yc
    .ok (s, x, xp, z)
  else do
    let xp ← parent s y
    let yp ← parent s y
    let s ← setParentIf s x yp
    let s ← relink s z x h
    let s ← fixMin fuel s x xp z h
    let s ← fixMax fuel s x xp z h
    .ok (s, x, xp, y)

/-- The loop of `rb_tree_erase_rebalance`, estl/rb_tree.hpp:482-544; returns `x`. If neither branch
applies the loop goes round with nothing changed. -/
def eraseLoop : Nat → St α → Option Nat → Option Nat → Nat → Res (St α × Option Nat)
  | 0, _, _, _, _ => .oof
  | f + 1, s, x, xp, h => do
    let root ← parent s (some h)
    if x = root then .ok (s, x)
    else do
      let xr ← isRed s x
      if xr then .ok (s, x)
      else do
        let l ← left s xp
        let r ← right s xp
        if x = l ∧ r ≠ none then do
          let c ← color s r
          let (s, b) ← (if c = .red then do
              let s ← setColor s r .black
              let s ← setColor s xp .red
              let s ← rotateLeft s xp h
              let b ← right s xp
              .ok (s, b)
            else .ok (s, r) : Res (St α × Option Nat))
          if b = none then .ok (s, x)
          else do
            let bl ← left s b
            let br ← right s b
            let blr ← isRed s bl
            let brr ← isRed s br
            if !blr && !brr then do
              let s ← setColor s b .red
              let xpp ← parent s xp
              eraseLoop f s xp xpp h
            else do
              let (s, b) ← (if !brr then do
                  let s ← blackenIf s bl
                  let s ← setColor s b .red
                  let s ← rotateRight s b h
                  let b ← right s xp
                  .ok (s, b)
                else .ok (s, b) : Res (St α × Option Nat))
              let c ← color s xp
              let s ← setColor s b c
              let s ← setColor s xp .black
              let br ← right s b
              let s ← blackenIf s br
              let s ← rotateLeft s xp h
              .ok (s, x)
        else if x = r ∧ l ≠ none then do
          let c ← color s l
          let (s, b) ← (if c = .red then do
              let s ← setColor s l .black
              let s ← setColor s xp .red
              let s ← rotateRight s xp h
              let b ← left s xp
              .ok (s, b)
            else .ok (s, l) : Res (St α × Option Nat))
          if b = none then .ok (s, x)
          else do
            let bl ← left s b
            let br ← right s b
            let blr ← isRed s bl
            let brr ← isRed s br
            if !blr && !brr then do
              let s ← setColor s b .red
              let xpp ← parent s xp
              eraseLoop f s xp xpp h
            else do
              let (s, b) ← (if !blr then do
                  let s ← blackenIf s br
                  let s ← setColor s b .red
                  let s ← rotateLeft s b h
                  let b ← left s xp
                  .ok (s, b)
                else .ok (s, b) : Res (St α × Option Nat))
              let c ← color s xp
              let s ← setColor s b c
              let s ← setColor s xp .black
              let bl ← left s b
              let s ← blackenIf s bl
              let s ← rotateRight s xp h
              .ok (s, x)
        else eraseLoop f s x xp h

/-- `rb_tree_erase_rebalance`, estl/rb_tree.hpp:427-549. -/
def eraseRebalance (fuel : Nat) (s : St α) (z : Option Nat) (h : Nat) : Res (St α) := do
  let (s, x, xp, y) ← eraseUnlink fuel s z h
  let yr ← isRed s y
  if yr then .ok s
  else do
    let (s, x) ← eraseLoop fuel s x xp h
    blackenIf s x

/-- `header_` and `count_` of the tree at `k`, estl/rb_tree.hpp:1002-1003. -/
def getT (s : St α) (k : Slot) : Res (Nat × Nat) :=
  match s.tree k with
  | some x => .ok x
  | none => .ub

/-- Assignment to `count_`, estl/rb_tree.hpp:1003. -/
def setCount (s : St α) (k : Slot) (n : Nat) : Res (St α) := do
  let (h, _) ← getT s k
  .ok { s with tree := upd s.tree k (some (h, n)) }

/-- `rb_tree()`, estl/rb_tree.hpp:594-598; the constructors with a comparison (600-610) do the
same. -/
def make (s : St α) (k : Slot) : Res (St α) :=
  match s.tree k with
  | some _ => .ub
  | none =>
    .ok { s with heap := upd s.heap s.next (some ⟨.red, some s.next, some s.next, none, none⟩), next := s.next + 1,
                 tree := upd s.tree k (some (s.next, 0)) }

/-- `begin()`, estl/rb_tree.hpp:646-651. -/
def begin (s : St α) (k : Slot) : Res (Option Nat) := do
  let (h, _) ← getT s k
  left s (some h)

/-- `end()`, estl/rb_tree.hpp:652-657. -/
def end' (s : St α) (k : Slot) : Res (Option Nat) := do
  let (h, _) ← getT s k
  .ok (some h)

/-- `size()`, estl/rb_tree.hpp:662-664. -/
def size (s : St α) (k : Slot) : Res Nat := do
  let (_, n) ← getT s k
  .ok n

/-- `empty()`, estl/rb_tree.hpp:659-661. -/
def empty (s : St α) (k : Slot) : Res Bool := do
  let n ← size s k
  .ok (n == 0)

/-- `get_key`, estl/rb_tree.hpp:917-922, and `operator*` of the iterators (219-221, 272-274): the value of
the node; the header has none. -/
def getKey (s : St α) (p : Option Nat) : Res α := do
  let r ← rd s p
  match r.val with
  | some v => .ok v
  | none => .ub

/-- `create_node`, estl/rb_tree.hpp:991-995. -/
def createNode (s : St α) (v : α) : St α × Option Nat :=
  ({ s with heap := upd s.heap s.next (some ⟨.red, none, none, none, some v⟩), next := s.next + 1 }, some s.next)

/-- `destory_node`, estl/rb_tree.hpp:997-999; undefined for null, deleted nodes and the header. -/
def destroyNode (s : St α) (p : Option Nat) : Res (St α) :=
  match p with
  | none => .ub
  | some a =>
    match s.heap a with
    | some ⟨_, _, _, _, some _⟩ => .ok { s with heap := upd s.heap a none, freed := a :: s.freed }
    | _ => .ub

/-- The loop of `find` and `lower_bound`, estl/rb_tree.hpp:681-688, 695-702, 849-856, 864-871. -/
def lowerLoop (lt : α → α → Bool) : Nat → St α → α → Option Nat → Option Nat → Res (Option Nat)
  | 0, _, _, _, _ => .oof
  | f + 1, s, key, node, cur =>
    match cur with
    | none => .ok node
    | some a => do
      let v ← getKey s (some a)
      if !lt v key then do
        let l ← left s (some a)
        lowerLoop lt f s key (some a) l
      else do
        let r ← right s (some a)
        lowerLoop lt f s key node r

/-- The loop of `upper_bound`, estl/rb_tree.hpp:879-886, 893-900. -/
def upperLoop (lt : α → α → Bool) : Nat → St α → α → Option Nat → Option Nat → Res (Option Nat)
  | 0, _, _, _, _ => .oof
  | f + 1, s, key, node, cur =>
    match cur with
    | none => .ok node
    | some a => do
      let v ← getKey s (some a)
      if lt key v then do
        let l ← left s (some a)
        upperLoop lt f s key (some a) l
      else do
        let r ← right s (some a)
        upperLoop lt f s key node r

/-- `lower_bound`, estl/rb_tree.hpp:845-873. -/
def lowerBound (lt : α → α → Bool) (fuel : Nat) (s : St α) (k : Slot) (key : α) : Res (Option Nat) := do
  let (h, _) ← getT s k
  let root ← parent s (some h)
  lowerLoop lt fuel s key (some h) root

/-- `upper_bound`, estl/rb_tree.hpp:875-902. -/
def upperBound (lt : α → α → Bool) (fuel : Nat) (s : St α) (k : Slot) (key : α) : Res (Option Nat) := do
  let (h, _) ← getT s k
  let root ← parent s (some h)
  upperLoop lt fuel s key (some h) root

/-- `find`, estl/rb_tree.hpp:678-705. -/
def find (lt : α → α → Bool) (fuel : Nat) (s : St α) (k : Slot) (key : α) : Res (Option Nat) := do
  let (h, _) ← getT s k
  let root ← parent s (some h)
  let node ← lowerLoop lt fuel s key (some h) root
  if node = some h then .ok (some h)
  else do
    let v ← getKey s node
    if lt key v then .ok (some h) else .ok node

/-- `equal_range_multi`, estl/rb_tree.hpp:766-771. -/
def equalRangeMulti (lt : α → α → Bool) (fuel : Nat) (s : St α) (k : Slot) (key : α) : Res (Option Nat × Option Nat) := do
  let a ← lowerBound lt fuel s k key
  let b ← upperBound lt fuel s k key
  .ok (a, b)

/-- `equal_range_unique`, estl/rb_tree.hpp:773-780. `make_pair(it++, it)` takes its second argument
by reference and reads it after both arguments are evaluated (estl/pair.hpp:75-78). -/
def equalRangeUnique (lt : α → α → Bool) (fuel : Nat) (s : St α) (k : Slot) (key : α) : Res (Option Nat × Option Nat) := do
  let it ← find lt fuel s k key
  let e ← end' s k
  if it = e then .ok (it, it)
  else do
    let it' ← increment fuel s it
    .ok (it, it')

/-- `distance`, estl/rb_tree.hpp:551-569. -/
def distance : Nat → Nat → St α → Option Nat → Option Nat → Nat → Res Nat
  | _, 0, _, _, _, _ => .oof
  | fuel, f + 1, s, first, last, n =>
    if first = last then .ok n
    else do
      let first ← increment fuel s first
      distance fuel f s first last (n + 1)

/-- `count_unique`, estl/rb_tree.hpp:710-712. -/
def countUnique (lt : α → α → Bool) (fuel : Nat) (s : St α) (k : Slot) (key : α) : Res Nat := do
  let it ← find lt fuel s k key
  let e ← end' s k
  .ok (if it ≠ e then 1 else 0)

/-- `count_multi`, estl/rb_tree.hpp:706-709. -/
def countMulti (lt : α → α → Bool) (fuel : Nat) (s : St α) (k : Slot) (key : α) : Res Nat := do
  let (a, b) ← equalRangeMulti lt fuel s k key
  distance fuel fuel s a b 0

/-- The loop of `insert_multi_pos` and `insert_unique_pos`, estl/rb_tree.hpp:928-932, 941-945. -/
def posLoop (lt : α → α → Bool) : Nat → St α → α → Option Nat → Option Nat → Bool → Res (Option Nat × Bool)
  | 0, _, _, _, _, _ => .oof
  | f + 1, s, key, node, child, onLeft =>
    match child with
    | none => .ok (node, onLeft)
    | some a => do
      let v ← getKey s (some a)
      let onLeft := lt key v
      let child ← (if onLeft then left s (some a) else right s (some a) : Res (Option Nat))
      posLoop lt f s key (some a) child onLeft

/-- `insert_multi_pos`, estl/rb_tree.hpp:923-935. -/
def insertMultiPos (lt : α → α → Bool) (fuel : Nat) (s : St α) (k : Slot) (key : α) : Res (Option Nat × Bool) := do
  let (h, _) ← getT s k
  let root ← parent s (some h)
  posLoop lt fuel s key (some h) root true

/-- `insert_unique_pos`, estl/rb_tree.hpp:936-962. -/
def insertUniquePos (lt : α → α → Bool) (fuel : Nat) (s : St α) (k : Slot) (key : α) : Res ((Option Nat × Bool) × Bool) := do
  let (h, _) ← getT s k
  let root ← parent s (some h)
  let (node, onLeft) ← posLoop lt fuel s key (some h) root true
  if onLeft then do
    let b ← begin s k
    if node = some h ∨ node = b then .ok ((node, onLeft), true)
    else do
      let it ← decrement fuel s node
      let v ← getKey s it
      .ok ((node, onLeft), lt v key)
  else do
    let v ← getKey s node
    .ok ((node, onLeft), lt v key)

/-- `insert_node_at`, estl/rb_tree.hpp:967-989. -/
def insertNodeAt (fuel : Nat) (s : St α) (k : Slot) (node ins : Option Nat) (onLeft : Bool) : Res (St α × Option Nat) := do
  let (h, n) ← getT s k
  let s ← setParent s ins node
  let s ← (if node = some h then do
      let s ← setParent s (some h) ins
      let s ← setLeft s (some h) ins
      setRight s (some h) ins
    else if onLeft then do
      let s ← setLeft s node ins
      let m ← left s (some h)
      if m = node then setLeft s (some h) ins else .ok s
    else do
      let s ← setRight s node ins
      let m ← right s (some h)
      if m = node then setRight s (some h) ins else .ok s : Res (St α))
  let s ← insertRebalance fuel s ins h
  let s ← setCount s k (n + 1)
  .ok (s, ins)

/-- `emplace_multi`, estl/rb_tree.hpp:714-719; `insert_multi` (734-740) calls it. -/
def emplaceMulti (lt : α → α → Bool) (fuel : Nat) (s : St α) (k : Slot) (v : α) : Res (St α × Option Nat) := do
  let (s, node) := createNode s v
  let key ← getKey s node
  let (pos, onLeft) ← insertMultiPos lt fuel s k key
  insertNodeAt fuel s k pos node onLeft

/-- `emplace_unique`, estl/rb_tree.hpp:721-732; `insert_unique` (750-756) calls it. -/
def emplaceUnique (lt : α → α → Bool) (fuel : Nat) (s : St α) (k : Slot) (v : α) : Res (St α × Option Nat × Bool) := do
  let (s, node) := createNode s v
  let key ← getKey s node
  let ((pos, onLeft), success) ← insertUniquePos lt fuel s k key
  if success then do
    let (s, it) ← insertNodeAt fuel s k pos node onLeft
    .ok (s, it, success)
  else do
    let s ← destroyNode s node
    .ok (s, pos, false)

/-- `erase(hint)`, estl/rb_tree.hpp:781-797. -/
def erase (fuel : Nat) (s : St α) (k : Slot) (hint : Option Nat) : Res (St α × Option Nat) := do
  let next ← increment fuel s hint
  let (h, n) ← getT s k
  let s ← eraseRebalance fuel s hint h
  let s ← destroyNode s hint
  let s ← setCount s k (n - 1)
  .ok (s, next)

/-- `erase_since`, estl/rb_tree.hpp:799-806: the loop and the recursive call. -/
def eraseSince : Nat → St α → Option Nat → Res (St α)
  | 0, _, _ => .oof
  | f + 1, s, node =>
    match node with
    | none => .ok s
    | some a => do
      let r ← right s (some a)
      let s ← eraseSince f s r
      let l ← left s (some a)
      let s ← destroyNode s (some a)
      eraseSince f s l

/-- `clear`, estl/rb_tree.hpp:669-677. -/
def clear (fuel : Nat) (s : St α) (k : Slot) : Res (St α) := do
  let (h, n) ← getT s k
  if n = 0 then .ok s
  else do
    let root ← parent s (some h)
    let s ← eraseSince fuel s root
    let s ← setLeft s (some h) (some h)
    let s ← setRight s (some h) (some h)
    let s ← setParent s (some h) none
    setCount s k 0

/-- The loop of `erase(first, last)`, estl/rb_tree.hpp:829-831, 839-841. -/
def eraseRangeLoop : Nat → Nat → St α → Slot → Option Nat → Option Nat → Res (St α)
  | _, 0, _, _, _, _ => .oof
  | fuel, f + 1, s, k, first, last =>
    if first = last then .ok s
    else do
      let next ← increment fuel s first
      let (s, _) ← erase fuel s k first
      eraseRangeLoop fuel f s k next last

/-- `erase(first, last)`, estl/rb_tree.hpp:825-843. -/
def eraseRange (fuel : Nat) (s : St α) (k : Slot) (first last : Option Nat) : Res (St α) := do
  let b ← begin s k
  let e ← end' s k
  if first = b ∧ last = e then clear fuel s k else eraseRangeLoop fuel fuel s k first last

/-- `erase_multi`, estl/rb_tree.hpp:808-813. -/
def eraseMulti (lt : α → α → Bool) (fuel : Nat) (s : St α) (k : Slot) (key : α) : Res (St α × Nat) := do
  let (a, b) ← equalRangeMulti lt fuel s k key
  let n ← distance fuel fuel s a b 0
  let s ← eraseRange fuel s k a b
  .ok (s, n)

/-- `erase_unique`, estl/rb_tree.hpp:815-823. -/
def eraseUnique (lt : α → α → Bool) (fuel : Nat) (s : St α) (k : Slot) (key : α) : Res (St α × Nat) := do
  let it ← find lt fuel s k key
  let e ← end' s k
  if it = e then .ok (s, 0)
  else do
    let (s, _) ← erase fuel s k it
    .ok (s, 1)

/-- `insert` of `set` (`multi = false`, estl/set.hpp:80-91) or `multiset` (`true`,
estl/set.hpp:228-239). -/
def insert (lt : α → α → Bool) (multi : Bool) (fuel : Nat) (s : St α) (k : Slot) (v : α) : Res (St α × Option Nat × Bool) :=
  if multi then do
    let (s, it) ← emplaceMulti lt fuel s k v
    .ok (s, it, true)
  else emplaceUnique lt fuel s k v

/-- `insert(first, last)` for a range of values, estl/rb_tree.hpp:742-748, 758-764. -/
def insertAll (lt : α → α → Bool) (multi : Bool) (fuel : Nat) (s : St α) (k : Slot) : List α → Res (St α)
  | [] => .ok s
  | v :: vs => do
    let (s, _) ← insert lt multi fuel s k v
    insertAll lt multi fuel s k vs

/-- `set(initializer_list)` and `set(first, last)`, estl/set.hpp:32-40; `multiset` likewise,
estl/set.hpp:180-188. -/
def initList (lt : α → α → Bool) (multi : Bool) (fuel : Nat) (s : St α) (k : Slot) (vs : List α) : Res (St α) := do
  let s ← make s k
  insertAll lt multi fuel s k vs

/-- The loop of the copy constructor, estl/rb_tree.hpp:614-616: iteration over the tree at `j`. -/
def copyLoop (lt : α → α → Bool) : Nat → Nat → St α → Slot → Option Nat → Option Nat → Res (St α)
  | _, 0, _, _, _, _ => .oof
  | fuel, f + 1, s, k, it, e =>
    if it = e then .ok s
    else do
      let v ← getKey s it
      let (s, _) ← emplaceMulti lt fuel s k v
      let it ← increment fuel s it
      copyLoop lt fuel f s k it e

/-- `rb_tree(const rb_tree&)`, estl/rb_tree.hpp:612-617; `set(const set&)`, estl/set.hpp:26-27. -/
def copy (lt : α → α → Bool) (fuel : Nat) (s : St α) (k j : Slot) : Res (St α) := do
  let s ← make s k
  let b ← begin s j
  let e ← end' s j
  copyLoop lt fuel fuel s k b e

/-- `swap`, estl/rb_tree.hpp:639-643; estl/set.hpp:51-53. -/
def swap (s : St α) (k j : Slot) : Res (St α) := do
  let x ← getT s k
  let y ← getT s j
  .ok { s with tree := upd (upd s.tree k (some y)) j (some x) }

/-- `rb_tree(rb_tree&&)`, estl/rb_tree.hpp:619-622; `set(set&&)`, estl/set.hpp:29-30. -/
def move (s : St α) (k j : Slot) : Res (St α) := do
  let s ← make s k
  swap s j k

/-- `~rb_tree()`, estl/rb_tree.hpp:634-637. The header is deleted last. -/
def destroy (fuel : Nat) (s : St α) (k : Slot) : Res (St α) := do
  let s ← clear fuel s k
  let (h, _) ← getT s k
  match s.heap h with
  | some _ => .ok { s with heap := upd s.heap h none, freed := h :: s.freed, tree := upd s.tree k none }
  | none => .ub

/-- `operator=(set rhs)` from an lvalue, estl/set.hpp:42-45. -/
def assignCopy (lt : α → α → Bool) (fuel : Nat) (s : St α) (k j : Slot) : Res (St α) := do
  let s ← copy lt fuel s .temp j
  let s ← swap s .temp k
  destroy fuel s .temp

/-- `operator=(set rhs)` from an rvalue, estl/set.hpp:42-45. -/
def assignMove (fuel : Nat) (s : St α) (k j : Slot) : Res (St α) := do
  let s ← move s .temp j
  let s ← swap s .temp k
  destroy fuel s .temp

/-- `operator=(initializer_list)`, estl/set.hpp:47-50, 195-198. -/
def assignList (lt : α → α → Bool) (multi : Bool) (fuel : Nat) (s : St α) (k : Slot) (vs : List α) : Res (St α) := do
  let s ← initList lt multi fuel s .temp vs
  let s ← swap s .temp k
  destroy fuel s .temp

/-- Iteration by the program: the elements from `it` on until `e`, each with its position (range-for over
estl/rb_tree.hpp:646-657 with `operator++` 223-232 and `operator*` 219-221). -/
def collect : Nat → Nat → St α → Option Nat → Option Nat → Res (List (Nat × α))
  | _, 0, _, _, _ => .oof
  | fuel, f + 1, s, it, e =>
    if it = e then .ok []
    else do
      let v ← getKey s it
      let it' ← increment fuel s it
      let vs ← collect fuel f s it' e
      .ok ((it.getD 0, v) :: vs)

/-- Iteration from `begin()` to `end()`, estl/rb_tree.hpp:646-657. -/
def walk (fuel : Nat) (s : St α) (k : Slot) : Res (List (Nat × α)) := do
  let b ← begin s k
  let e ← end' s k
  collect fuel fuel s b e

/-- What a program can do with its sets (or multisets), which are numbered. Iterators are node
addresses (estl/set.hpp:21-147, 169-296). -/
inductive Op (α : Type) where
  | make (k : Nat)
  | initList (k : Nat) (vs : List α)
  | copy (k j : Nat)
  | move (k j : Nat)
  | destroy (k : Nat)
  | assignCopy (k j : Nat)
  | assignMove (k j : Nat)
  | assignList (k : Nat) (vs : List α)
  | swap (k j : Nat)
  | insert (k : Nat) (v : α)
  | insertAll (k : Nat) (vs : List α)
  | eraseIt (k : Nat) (it : Nat)
  | eraseRange (k : Nat) (first last : Nat)
  | eraseKey (k : Nat) (v : α)
  | clear (k : Nat)

/-- What a call returns: nothing, an iterator with a flag, or a number
(estl/set.hpp:21-147, 169-296). -/
inductive Ret where
  | unit
  | iter (it : Option Nat) (new : Bool)
  | num (n : Nat)
  deriving DecidableEq, Repr

/-- No result (no code) (used for estl/set.hpp). -/
def quiet (r : Res (St α)) : Res (St α × Ret) := do
  let s ← r
  .ok (s, .unit)

/-- One call and its result; the line numbers are at the functions called. `erase(it)` of `set` and
`multiset` returns nothing (estl/set.hpp:98-100, 246-248); the result shown is that of
`rb_tree::erase`. -/
def step (lt : α → α → Bool) (multi : Bool) (fuel : Nat) (s : St α) : Op α → Res (St α × Ret)
  | .make k => quiet (Rb.make s (.user k))
  | .initList k vs => quiet (Rb.initList lt multi fuel s (.user k) vs)
  | .copy k j => quiet (Rb.copy lt fuel s (.user k) (.user j))
  | .move k j => quiet (Rb.move s (.user k) (.user j))
  | .destroy k => quiet (Rb.destroy fuel s (.user k))
  | .assignCopy k j => quiet (Rb.assignCopy lt fuel s (.user k) (.user j))
  | .assignMove k j => quiet (Rb.assignMove fuel s (.user k) (.user j))
  | .assignList k vs => quiet (Rb.assignList lt multi fuel s (.user k) vs)
  | .swap k j => quiet (Rb.swap s (.user k) (.user j))
  | .insert k v => do
    let (s, it, b) ← Rb.insert lt multi fuel s (.user k) v
    .ok (s, .iter it b)
  | .insertAll k vs => quiet (Rb.insertAll lt multi fuel s (.user k) vs)
  | .eraseIt k it => do
    let (s, it) ← Rb.erase fuel s (.user k) (some it)
    .ok (s, .iter it false)
  | .eraseRange k first last => quiet (Rb.eraseRange fuel s (.user k) (some first) (some last))
  | .eraseKey k v => do
    let (s, n) ← (if multi then eraseMulti lt fuel s (.user k) v else eraseUnique lt fuel s (.user k) v : Res (St α × Nat))
    .ok (s, .num n)
  | .clear k => quiet (Rb.clear fuel s (.user k))

/-- A history of calls and their results (no code) (estl/set.hpp). -/
def run (lt : α → α → Bool) (multi : Bool) (fuel : Nat) (s : St α) : List (Op α) → Res (St α × List Ret)
  | [] => .ok (s, [])
  | o :: os => do
    let (s, r) ← step lt multi fuel s o
    let (s, rs) ← run lt multi fuel s os
    .ok (s, r :: rs)

end Verif.Rb
