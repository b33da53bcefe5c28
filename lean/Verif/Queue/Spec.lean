import Mathlib.Data.List.Basic

/-
What a user expects of the queues.
-/
namespace Verif.Queue.Spec

/-- An item: the bytes of its `T` and its body. -/
structure Item where
  head : List UInt8
  body : List UInt8

/-- The bytes an item takes. -/
def Item.bytes (x : Item) : Nat := 12 + x.head.length + x.body.length

/-- The bytes of all items. -/
def stored (l : List Item) : Nat := (l.map Item.bytes).sum

/-- An operation. -/
inductive Op
  | push (x : Item)
  /-- `pop` with a buffer of some length, or without. -/
  | pop (buffer : Option Nat)
  | pick
  | size
  | clear

/-- What an operation answers. -/
inductive Answer
  | pushed (ok : Bool)
  /-- The `T`, the length of the body, and what is in the buffer. -/
  | item (head : List UInt8) (length : Nat) (data : Option (List UInt8))
  | size (n : Int)
  | unit

/-- The behaviours of a queue with `room` bytes for items, which throws away old items to make room if `drop` is set: from the contents `l`, the
operations `ops` may give the answers `rs`. -/
inductive Fifo (room : Nat) (drop : Bool) : List Item → List Op → List Answer → Prop
  | done (l) : Fifo room drop l [] []
  /-- Taken: at the end of the queue. The `k` oldest items are lost, none if `drop` is not set or twice the space would do. -/
  | taken (l k x ops rs) (hk : k ≤ l.length) (h1 : drop = false → k = 0) (h2 : 2 * (stored l + x.bytes) ≤ room → k = 0)
      (h : Fifo room drop (l.drop k ++ [x]) ops rs) : Fifo room drop l (.push x :: ops) (.pushed true :: rs)
  /-- Refused: when `drop` is not set nothing has changed and there is not twice the space; when `drop` is set the item is larger than the
  room, and the queue is empty afterwards. -/
  | refused (l x ops rs) (h1 : drop = false → room < 2 * (stored l + x.bytes)) (h2 : drop = true → room < x.bytes)
      (h : Fifo room drop (if drop then [] else l) ops rs) : Fifo room drop l (.push x :: ops) (.pushed false :: rs)
  /-- The next item, which is removed if there is a buffer and the body fits. -/
  | popped (l x n ops rs) (hn : x.body.length ≤ n) (h : Fifo room drop l ops rs) :
      Fifo room drop (x :: l) (.pop (some n) :: ops) (.item x.head x.body.length (some x.body) :: rs)
  | kept (l x b ops rs) (hb : ∀ n, b = some n → n < x.body.length) (h : Fifo room drop (x :: l) ops rs) :
      Fifo room drop (x :: l) (.pop b :: ops) (.item x.head x.body.length none :: rs)
  | picked (l x ops rs) (h : Fifo room drop (x :: l) ops rs) :
      Fifo room drop (x :: l) (.pick :: ops) (.item x.head x.body.length (some x.body) :: rs)
  | size (l ops rs) (h : Fifo room drop l ops rs) : Fifo room drop l (.size :: ops) (.size l.length :: rs)
  | clear (l ops rs) (h : Fifo room drop [] ops rs) : Fifo room drop l (.clear :: ops) (.unit :: rs)
  /-- The user asks for the size first, and takes nothing from an empty queue. -/
  | noPop (b ops rs) (h : Fifo room drop [] ops rs) : Fifo room drop [] (.pop b :: ops) (.unit :: rs)
  | noPick (ops rs) (h : Fifo room drop [] ops rs) : Fifo room drop [] (.pick :: ops) (.unit :: rs)

/-- The answers of an unbounded queue. -/
def unbounded : List Item → List Op → List Answer
  | _, [] => []
  | l, .push x :: ops => .pushed true :: unbounded (l ++ [x]) ops
  | x :: l, .pop (some n) :: ops =>
    if x.body.length ≤ n then .item x.head x.body.length (some x.body) :: unbounded l ops
    else .item x.head x.body.length none :: unbounded (x :: l) ops
  | x :: l, .pop none :: ops => .item x.head x.body.length none :: unbounded (x :: l) ops
  | x :: l, .pick :: ops => .item x.head x.body.length (some x.body) :: unbounded (x :: l) ops
  | l, .size :: ops => .size l.length :: unbounded l ops
  | _, .clear :: ops => .unit :: unbounded [] ops
  | [], .pop _ :: ops => .unit :: unbounded [] ops
  | [], .pick :: ops => .unit :: unbounded [] ops

/-- The contents of an unbounded queue after the operations. -/
def contents : List Item → List Op → List Item
  | l, [] => l
  | l, .push x :: ops => contents (l ++ [x]) ops
  | x :: l, .pop (some n) :: ops => contents (if x.body.length ≤ n then l else x :: l) ops
  | _, .clear :: ops => contents [] ops
  | l, _ :: ops => contents l ops

end Verif.Queue.Spec
