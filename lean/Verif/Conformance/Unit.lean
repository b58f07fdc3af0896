import Verif.Conformance.Base
/-!
# Unit tests

Generated by `conformance/gen.py`.  Tests of the model, not proofs.
-/

namespace Bulloak.Conformance
attribute [local instance] asciiUcd

-- `syntax/src/tokenizer.rs`: `only_contract_name`
#guard tokens "Foo" [⟨.word, ⟨⟨0, 1, 1⟩, ⟨2, 1, 3⟩⟩, c!"Foo"⟩]

-- `syntax/src/tokenizer.rs`: `only_contract_name`
#guard tokens " Foo" [⟨.word, ⟨⟨1, 1, 2⟩, ⟨3, 1, 4⟩⟩, c!"Foo"⟩]

-- `syntax/src/tokenizer.rs`: `only_contract_name`
#guard tokens "Foo " [⟨.word, ⟨⟨0, 1, 1⟩, ⟨2, 1, 3⟩⟩, c!"Foo"⟩]

-- `syntax/src/tokenizer.rs`: `comments`
#guard tokens "Foo_Test\n└── when something bad happens // some comments \n   └── it should revert\n" [⟨.word, ⟨⟨0, 1, 1⟩, ⟨7, 1, 8⟩⟩, c!"Foo_Test"⟩, ⟨.corner, ⟨⟨9, 2, 1⟩, ⟨9, 2, 1⟩⟩, c!"└"⟩, ⟨.when, ⟨⟨19, 2, 5⟩, ⟨22, 2, 8⟩⟩, c!"when"⟩, ⟨.word, ⟨⟨24, 2, 10⟩, ⟨32, 2, 18⟩⟩, c!"something"⟩, ⟨.word, ⟨⟨34, 2, 20⟩, ⟨36, 2, 22⟩⟩, c!"bad"⟩, ⟨.word, ⟨⟨38, 2, 24⟩, ⟨44, 2, 30⟩⟩, c!"happens"⟩, ⟨.corner, ⟨⟨67, 3, 4⟩, ⟨67, 3, 4⟩⟩, c!"└"⟩, ⟨.it, ⟨⟨77, 3, 8⟩, ⟨78, 3, 9⟩⟩, c!"it"⟩, ⟨.word, ⟨⟨80, 3, 11⟩, ⟨85, 3, 16⟩⟩, c!"should"⟩, ⟨.word, ⟨⟨87, 3, 18⟩, ⟨92, 3, 23⟩⟩, c!"revert"⟩]

-- `syntax/src/tokenizer.rs`: `comments`
#guard tokens "Foo_Test\n└── when something bad happens\n   // some comments\n   └── it should revert\n" [⟨.word, ⟨⟨0, 1, 1⟩, ⟨7, 1, 8⟩⟩, c!"Foo_Test"⟩, ⟨.corner, ⟨⟨9, 2, 1⟩, ⟨9, 2, 1⟩⟩, c!"└"⟩, ⟨.when, ⟨⟨19, 2, 5⟩, ⟨22, 2, 8⟩⟩, c!"when"⟩, ⟨.word, ⟨⟨24, 2, 10⟩, ⟨32, 2, 18⟩⟩, c!"something"⟩, ⟨.word, ⟨⟨34, 2, 20⟩, ⟨36, 2, 22⟩⟩, c!"bad"⟩, ⟨.word, ⟨⟨38, 2, 24⟩, ⟨44, 2, 30⟩⟩, c!"happens"⟩, ⟨.corner, ⟨⟨69, 4, 4⟩, ⟨69, 4, 4⟩⟩, c!"└"⟩, ⟨.it, ⟨⟨79, 4, 8⟩, ⟨80, 4, 9⟩⟩, c!"it"⟩, ⟨.word, ⟨⟨82, 4, 11⟩, ⟨87, 4, 16⟩⟩, c!"should"⟩, ⟨.word, ⟨⟨89, 4, 18⟩, ⟨94, 4, 23⟩⟩, c!"revert"⟩]

-- `syntax/src/tokenizer.rs`: `invalid_characters`
#guard tokenError "foo\n└── when |weird identifier" ⟨'|', Span.splat ⟨19, 2, 10⟩⟩

-- `syntax/src/tokenizer.rs`: `invalid_characters`
#guard tokenError "foo\n└── when w|eird identifier" ⟨'|', Span.splat ⟨20, 2, 11⟩⟩

-- `syntax/src/tokenizer.rs`: `invalid_characters`
#guard tokenError "foo\n└── when weird| identifier" ⟨'|', Span.splat ⟨24, 2, 15⟩⟩

-- `syntax/src/tokenizer.rs`: `invalid_characters`
#guard tokenError "foo\n└── when .weird identifier" ⟨'.', Span.splat ⟨19, 2, 10⟩⟩

-- `syntax/src/tokenizer.rs`: `invalid_characters`
#guard tokenError "foo\n└── when w,eird identifier" ⟨',', Span.splat ⟨20, 2, 11⟩⟩

-- `syntax/src/tokenizer.rs`: `invalid_characters`
#guard tokenError "foo\n└── given |weird identifier" ⟨'|', Span.splat ⟨20, 2, 11⟩⟩

-- `syntax/src/tokenizer.rs`: `invalid_characters`
#guard tokenError "foo\n└── given w|eird identifier" ⟨'|', Span.splat ⟨21, 2, 12⟩⟩

-- `syntax/src/tokenizer.rs`: `invalid_characters`
#guard tokenError "foo\n└── given weird| identifier" ⟨'|', Span.splat ⟨25, 2, 16⟩⟩

-- `syntax/src/tokenizer.rs`: `invalid_characters`
#guard tokenError "foo\n└── given .weird identifier" ⟨'.', Span.splat ⟨20, 2, 11⟩⟩

-- `syntax/src/tokenizer.rs`: `invalid_characters`
#guard tokenError "foo\n└── given w,eird identifier" ⟨',', Span.splat ⟨21, 2, 12⟩⟩

-- `syntax/src/tokenizer.rs`: `only_filename_and_newline`
#guard tokens "foo\n" [⟨.word, ⟨⟨0, 1, 1⟩, ⟨2, 1, 3⟩⟩, c!"foo"⟩]

-- `syntax/src/tokenizer.rs`: `only_filename_and_newline`
#guard tokens " foo\n" [⟨.word, ⟨⟨1, 1, 2⟩, ⟨3, 1, 4⟩⟩, c!"foo"⟩]

-- `syntax/src/tokenizer.rs`: `only_filename_and_newline`
#guard tokens "foo \n" [⟨.word, ⟨⟨0, 1, 1⟩, ⟨2, 1, 3⟩⟩, c!"foo"⟩]

-- `syntax/src/tokenizer.rs`: `one_child`
#guard tokens "Foo_Test\n└── when something bad happens\n   └── it should revert\n" [⟨.word, ⟨⟨0, 1, 1⟩, ⟨7, 1, 8⟩⟩, c!"Foo_Test"⟩, ⟨.corner, ⟨⟨9, 2, 1⟩, ⟨9, 2, 1⟩⟩, c!"└"⟩, ⟨.when, ⟨⟨19, 2, 5⟩, ⟨22, 2, 8⟩⟩, c!"when"⟩, ⟨.word, ⟨⟨24, 2, 10⟩, ⟨32, 2, 18⟩⟩, c!"something"⟩, ⟨.word, ⟨⟨34, 2, 20⟩, ⟨36, 2, 22⟩⟩, c!"bad"⟩, ⟨.word, ⟨⟨38, 2, 24⟩, ⟨44, 2, 30⟩⟩, c!"happens"⟩, ⟨.corner, ⟨⟨49, 3, 4⟩, ⟨49, 3, 4⟩⟩, c!"└"⟩, ⟨.it, ⟨⟨59, 3, 8⟩, ⟨60, 3, 9⟩⟩, c!"it"⟩, ⟨.word, ⟨⟨62, 3, 11⟩, ⟨67, 3, 16⟩⟩, c!"should"⟩, ⟨.word, ⟨⟨69, 3, 18⟩, ⟨74, 3, 23⟩⟩, c!"revert"⟩]

-- `syntax/src/tokenizer.rs`: `one_child`
#guard tokens "Foo_Test\n└── given something bad happens\n   └── it should revert\n" [⟨.word, ⟨⟨0, 1, 1⟩, ⟨7, 1, 8⟩⟩, c!"Foo_Test"⟩, ⟨.corner, ⟨⟨9, 2, 1⟩, ⟨9, 2, 1⟩⟩, c!"└"⟩, ⟨.given, ⟨⟨19, 2, 5⟩, ⟨23, 2, 9⟩⟩, c!"given"⟩, ⟨.word, ⟨⟨25, 2, 11⟩, ⟨33, 2, 19⟩⟩, c!"something"⟩, ⟨.word, ⟨⟨35, 2, 21⟩, ⟨37, 2, 23⟩⟩, c!"bad"⟩, ⟨.word, ⟨⟨39, 2, 25⟩, ⟨45, 2, 31⟩⟩, c!"happens"⟩, ⟨.corner, ⟨⟨50, 3, 4⟩, ⟨50, 3, 4⟩⟩, c!"└"⟩, ⟨.it, ⟨⟨60, 3, 8⟩, ⟨61, 3, 9⟩⟩, c!"it"⟩, ⟨.word, ⟨⟨63, 3, 11⟩, ⟨68, 3, 16⟩⟩, c!"should"⟩, ⟨.word, ⟨⟨70, 3, 18⟩, ⟨75, 3, 23⟩⟩, c!"revert"⟩]

-- `syntax/src/tokenizer.rs`: `multiple_children`
#guard tokens "multiple_children.t.sol\n├── when stuff called\n│  └── it should revert\n└── when not stuff called\n   ├── when the deposit amount is zero\n   │  └── it should revert\n   └── when the deposit amount is not zero\n      ├── when the number count is zero\n      │  └── it should revert\n      ├── when the asset is not a contract\n      │  └── it should revert\n      └── when the asset is a contract\n          ├── when the asset misses the ERC-20 return value\n          │  ├── it should create the child\n          │  ├── it should perform the ERC-20 transfers\n          │  └── it should emit a {MultipleChildren} event\n          └── when the asset does not miss the ERC-20 return value\n              ├── it should create the child\n              └── it should emit a {MultipleChildren} event\n" [⟨.word, ⟨⟨0, 1, 1⟩, ⟨22, 1, 23⟩⟩, c!"multiple_children.t.sol"⟩, ⟨.tee, ⟨⟨24, 2, 1⟩, ⟨24, 2, 1⟩⟩, c!"├"⟩, ⟨.when, ⟨⟨34, 2, 5⟩, ⟨37, 2, 8⟩⟩, c!"when"⟩, ⟨.word, ⟨⟨39, 2, 10⟩, ⟨43, 2, 14⟩⟩, c!"stuff"⟩, ⟨.word, ⟨⟨45, 2, 16⟩, ⟨50, 2, 21⟩⟩, c!"called"⟩, ⟨.corner, ⟨⟨57, 3, 4⟩, ⟨57, 3, 4⟩⟩, c!"└"⟩, ⟨.it, ⟨⟨67, 3, 8⟩, ⟨68, 3, 9⟩⟩, c!"it"⟩, ⟨.word, ⟨⟨70, 3, 11⟩, ⟨75, 3, 16⟩⟩, c!"should"⟩, ⟨.word, ⟨⟨77, 3, 18⟩, ⟨82, 3, 23⟩⟩, c!"revert"⟩, ⟨.corner, ⟨⟨84, 4, 1⟩, ⟨84, 4, 1⟩⟩, c!"└"⟩, ⟨.when, ⟨⟨94, 4, 5⟩, ⟨97, 4, 8⟩⟩, c!"when"⟩, ⟨.word, ⟨⟨99, 4, 10⟩, ⟨101, 4, 12⟩⟩, c!"not"⟩, ⟨.word, ⟨⟨103, 4, 14⟩, ⟨107, 4, 18⟩⟩, c!"stuff"⟩, ⟨.word, ⟨⟨109, 4, 20⟩, ⟨114, 4, 25⟩⟩, c!"called"⟩, ⟨.tee, ⟨⟨119, 5, 4⟩, ⟨119, 5, 4⟩⟩, c!"├"⟩, ⟨.when, ⟨⟨129, 5, 8⟩, ⟨132, 5, 11⟩⟩, c!"when"⟩, ⟨.word, ⟨⟨134, 5, 13⟩, ⟨136, 5, 15⟩⟩, c!"the"⟩, ⟨.word, ⟨⟨138, 5, 17⟩, ⟨144, 5, 23⟩⟩, c!"deposit"⟩, ⟨.word, ⟨⟨146, 5, 25⟩, ⟨151, 5, 30⟩⟩, c!"amount"⟩, ⟨.word, ⟨⟨153, 5, 32⟩, ⟨154, 5, 33⟩⟩, c!"is"⟩, ⟨.word, ⟨⟨156, 5, 35⟩, ⟨159, 5, 38⟩⟩, c!"zero"⟩, ⟨.corner, ⟨⟨169, 6, 7⟩, ⟨169, 6, 7⟩⟩, c!"└"⟩, ⟨.it, ⟨⟨179, 6, 11⟩, ⟨180, 6, 12⟩⟩, c!"it"⟩, ⟨.word, ⟨⟨182, 6, 14⟩, ⟨187, 6, 19⟩⟩, c!"should"⟩, ⟨.word, ⟨⟨189, 6, 21⟩, ⟨194, 6, 26⟩⟩, c!"revert"⟩, ⟨.corner, ⟨⟨199, 7, 4⟩, ⟨199, 7, 4⟩⟩, c!"└"⟩, ⟨.when, ⟨⟨209, 7, 8⟩, ⟨212, 7, 11⟩⟩, c!"when"⟩, ⟨.word, ⟨⟨214, 7, 13⟩, ⟨216, 7, 15⟩⟩, c!"the"⟩, ⟨.word, ⟨⟨218, 7, 17⟩, ⟨224, 7, 23⟩⟩, c!"deposit"⟩, ⟨.word, ⟨⟨226, 7, 25⟩, ⟨231, 7, 30⟩⟩, c!"amount"⟩, ⟨.word, ⟨⟨233, 7, 32⟩, ⟨234, 7, 33⟩⟩, c!"is"⟩, ⟨.word, ⟨⟨236, 7, 35⟩, ⟨238, 7, 37⟩⟩, c!"not"⟩, ⟨.word, ⟨⟨240, 7, 39⟩, ⟨243, 7, 42⟩⟩, c!"zero"⟩, ⟨.tee, ⟨⟨251, 8, 7⟩, ⟨251, 8, 7⟩⟩, c!"├"⟩, ⟨.when, ⟨⟨261, 8, 11⟩, ⟨264, 8, 14⟩⟩, c!"when"⟩, ⟨.word, ⟨⟨266, 8, 16⟩, ⟨268, 8, 18⟩⟩, c!"the"⟩, ⟨.word, ⟨⟨270, 8, 20⟩, ⟨275, 8, 25⟩⟩, c!"number"⟩, ⟨.word, ⟨⟨277, 8, 27⟩, ⟨281, 8, 31⟩⟩, c!"count"⟩, ⟨.word, ⟨⟨283, 8, 33⟩, ⟨284, 8, 34⟩⟩, c!"is"⟩, ⟨.word, ⟨⟨286, 8, 36⟩, ⟨289, 8, 39⟩⟩, c!"zero"⟩, ⟨.corner, ⟨⟨302, 9, 10⟩, ⟨302, 9, 10⟩⟩, c!"└"⟩, ⟨.it, ⟨⟨312, 9, 14⟩, ⟨313, 9, 15⟩⟩, c!"it"⟩, ⟨.word, ⟨⟨315, 9, 17⟩, ⟨320, 9, 22⟩⟩, c!"should"⟩, ⟨.word, ⟨⟨322, 9, 24⟩, ⟨327, 9, 29⟩⟩, c!"revert"⟩, ⟨.tee, ⟨⟨335, 10, 7⟩, ⟨335, 10, 7⟩⟩, c!"├"⟩, ⟨.when, ⟨⟨345, 10, 11⟩, ⟨348, 10, 14⟩⟩, c!"when"⟩, ⟨.word, ⟨⟨350, 10, 16⟩, ⟨352, 10, 18⟩⟩, c!"the"⟩, ⟨.word, ⟨⟨354, 10, 20⟩, ⟨358, 10, 24⟩⟩, c!"asset"⟩, ⟨.word, ⟨⟨360, 10, 26⟩, ⟨361, 10, 27⟩⟩, c!"is"⟩, ⟨.word, ⟨⟨363, 10, 29⟩, ⟨365, 10, 31⟩⟩, c!"not"⟩, ⟨.word, ⟨⟨367, 10, 33⟩, ⟨367, 10, 33⟩⟩, c!"a"⟩, ⟨.word, ⟨⟨369, 10, 35⟩, ⟨376, 10, 42⟩⟩, c!"contract"⟩, ⟨.corner, ⟨⟨389, 11, 10⟩, ⟨389, 11, 10⟩⟩, c!"└"⟩, ⟨.it, ⟨⟨399, 11, 14⟩, ⟨400, 11, 15⟩⟩, c!"it"⟩, ⟨.word, ⟨⟨402, 11, 17⟩, ⟨407, 11, 22⟩⟩, c!"should"⟩, ⟨.word, ⟨⟨409, 11, 24⟩, ⟨414, 11, 29⟩⟩, c!"revert"⟩, ⟨.corner, ⟨⟨422, 12, 7⟩, ⟨422, 12, 7⟩⟩, c!"└"⟩, ⟨.when, ⟨⟨432, 12, 11⟩, ⟨435, 12, 14⟩⟩, c!"when"⟩, ⟨.word, ⟨⟨437, 12, 16⟩, ⟨439, 12, 18⟩⟩, c!"the"⟩, ⟨.word, ⟨⟨441, 12, 20⟩, ⟨445, 12, 24⟩⟩, c!"asset"⟩, ⟨.word, ⟨⟨447, 12, 26⟩, ⟨448, 12, 27⟩⟩, c!"is"⟩, ⟨.word, ⟨⟨450, 12, 29⟩, ⟨450, 12, 29⟩⟩, c!"a"⟩, ⟨.word, ⟨⟨452, 12, 31⟩, ⟨459, 12, 38⟩⟩, c!"contract"⟩, ⟨.tee, ⟨⟨471, 13, 11⟩, ⟨471, 13, 11⟩⟩, c!"├"⟩, ⟨.when, ⟨⟨481, 13, 15⟩, ⟨484, 13, 18⟩⟩, c!"when"⟩, ⟨.word, ⟨⟨486, 13, 20⟩, ⟨488, 13, 22⟩⟩, c!"the"⟩, ⟨.word, ⟨⟨490, 13, 24⟩, ⟨494, 13, 28⟩⟩, c!"asset"⟩, ⟨.word, ⟨⟨496, 13, 30⟩, ⟨501, 13, 35⟩⟩, c!"misses"⟩, ⟨.word, ⟨⟨503, 13, 37⟩, ⟨505, 13, 39⟩⟩, c!"the"⟩, ⟨.word, ⟨⟨507, 13, 41⟩, ⟨512, 13, 46⟩⟩, c!"ERC-20"⟩, ⟨.word, ⟨⟨514, 13, 48⟩, ⟨519, 13, 53⟩⟩, c!"return"⟩, ⟨.word, ⟨⟨521, 13, 55⟩, ⟨525, 13, 59⟩⟩, c!"value"⟩, ⟨.tee, ⟨⟨542, 14, 14⟩, ⟨542, 14, 14⟩⟩, c!"├"⟩, ⟨.it, ⟨⟨552, 14, 18⟩, ⟨553, 14, 19⟩⟩, c!"it"⟩, ⟨.word, ⟨⟨555, 14, 21⟩, ⟨560, 14, 26⟩⟩, c!"should"⟩, ⟨.word, ⟨⟨562, 14, 28⟩, ⟨567, 14, 33⟩⟩, c!"create"⟩, ⟨.word, ⟨⟨569, 14, 35⟩, ⟨571, 14, 37⟩⟩, c!"the"⟩, ⟨.word, ⟨⟨573, 14, 39⟩, ⟨577, 14, 43⟩⟩, c!"child"⟩, ⟨.tee, ⟨⟨594, 15, 14⟩, ⟨594, 15, 14⟩⟩, c!"├"⟩, ⟨.it, ⟨⟨604, 15, 18⟩, ⟨605, 15, 19⟩⟩, c!"it"⟩, ⟨.word, ⟨⟨607, 15, 21⟩, ⟨612, 15, 26⟩⟩, c!"should"⟩, ⟨.word, ⟨⟨614, 15, 28⟩, ⟨620, 15, 34⟩⟩, c!"perform"⟩, ⟨.word, ⟨⟨622, 15, 36⟩, ⟨624, 15, 38⟩⟩, c!"the"⟩, ⟨.word, ⟨⟨626, 15, 40⟩, ⟨631, 15, 45⟩⟩, c!"ERC-20"⟩, ⟨.word, ⟨⟨633, 15, 47⟩, ⟨641, 15, 55⟩⟩, c!"transfers"⟩, ⟨.corner, ⟨⟨658, 16, 14⟩, ⟨658, 16, 14⟩⟩, c!"└"⟩, ⟨.it, ⟨⟨668, 16, 18⟩, ⟨669, 16, 19⟩⟩, c!"it"⟩, ⟨.word, ⟨⟨671, 16, 21⟩, ⟨676, 16, 26⟩⟩, c!"should"⟩, ⟨.word, ⟨⟨678, 16, 28⟩, ⟨681, 16, 31⟩⟩, c!"emit"⟩, ⟨.word, ⟨⟨683, 16, 33⟩, ⟨683, 16, 33⟩⟩, c!"a"⟩, ⟨.word, ⟨⟨685, 16, 35⟩, ⟨702, 16, 52⟩⟩, c!"{MultipleChildren}"⟩, ⟨.word, ⟨⟨704, 16, 54⟩, ⟨708, 16, 58⟩⟩, c!"event"⟩, ⟨.corner, ⟨⟨720, 17, 11⟩, ⟨720, 17, 11⟩⟩, c!"└"⟩, ⟨.when, ⟨⟨730, 17, 15⟩, ⟨733, 17, 18⟩⟩, c!"when"⟩, ⟨.word, ⟨⟨735, 17, 20⟩, ⟨737, 17, 22⟩⟩, c!"the"⟩, ⟨.word, ⟨⟨739, 17, 24⟩, ⟨743, 17, 28⟩⟩, c!"asset"⟩, ⟨.word, ⟨⟨745, 17, 30⟩, ⟨748, 17, 33⟩⟩, c!"does"⟩, ⟨.word, ⟨⟨750, 17, 35⟩, ⟨752, 17, 37⟩⟩, c!"not"⟩, ⟨.word, ⟨⟨754, 17, 39⟩, ⟨757, 17, 42⟩⟩, c!"miss"⟩, ⟨.word, ⟨⟨759, 17, 44⟩, ⟨761, 17, 46⟩⟩, c!"the"⟩, ⟨.word, ⟨⟨763, 17, 48⟩, ⟨768, 17, 53⟩⟩, c!"ERC-20"⟩, ⟨.word, ⟨⟨770, 17, 55⟩, ⟨775, 17, 60⟩⟩, c!"return"⟩, ⟨.word, ⟨⟨777, 17, 62⟩, ⟨781, 17, 66⟩⟩, c!"value"⟩, ⟨.tee, ⟨⟨797, 18, 15⟩, ⟨797, 18, 15⟩⟩, c!"├"⟩, ⟨.it, ⟨⟨807, 18, 19⟩, ⟨808, 18, 20⟩⟩, c!"it"⟩, ⟨.word, ⟨⟨810, 18, 22⟩, ⟨815, 18, 27⟩⟩, c!"should"⟩, ⟨.word, ⟨⟨817, 18, 29⟩, ⟨822, 18, 34⟩⟩, c!"create"⟩, ⟨.word, ⟨⟨824, 18, 36⟩, ⟨826, 18, 38⟩⟩, c!"the"⟩, ⟨.word, ⟨⟨828, 18, 40⟩, ⟨832, 18, 44⟩⟩, c!"child"⟩, ⟨.corner, ⟨⟨848, 19, 15⟩, ⟨848, 19, 15⟩⟩, c!"└"⟩, ⟨.it, ⟨⟨858, 19, 19⟩, ⟨859, 19, 20⟩⟩, c!"it"⟩, ⟨.word, ⟨⟨861, 19, 22⟩, ⟨866, 19, 27⟩⟩, c!"should"⟩, ⟨.word, ⟨⟨868, 19, 29⟩, ⟨871, 19, 32⟩⟩, c!"emit"⟩, ⟨.word, ⟨⟨873, 19, 34⟩, ⟨873, 19, 34⟩⟩, c!"a"⟩, ⟨.word, ⟨⟨875, 19, 36⟩, ⟨892, 19, 53⟩⟩, c!"{MultipleChildren}"⟩, ⟨.word, ⟨⟨894, 19, 55⟩, ⟨898, 19, 59⟩⟩, c!"event"⟩]

-- `syntax/src/tokenizer.rs`: `case_insensitive_keywords`
#guard tokens "Foo_Test\n└── GIVEN something bad happens\n   └── whEN stuff is true\n   └── It should revert." [⟨.word, ⟨⟨0, 1, 1⟩, ⟨7, 1, 8⟩⟩, c!"Foo_Test"⟩, ⟨.corner, ⟨⟨9, 2, 1⟩, ⟨9, 2, 1⟩⟩, c!"└"⟩, ⟨.given, ⟨⟨19, 2, 5⟩, ⟨23, 2, 9⟩⟩, c!"GIVEN"⟩, ⟨.word, ⟨⟨25, 2, 11⟩, ⟨33, 2, 19⟩⟩, c!"something"⟩, ⟨.word, ⟨⟨35, 2, 21⟩, ⟨37, 2, 23⟩⟩, c!"bad"⟩, ⟨.word, ⟨⟨39, 2, 25⟩, ⟨45, 2, 31⟩⟩, c!"happens"⟩, ⟨.corner, ⟨⟨50, 3, 4⟩, ⟨50, 3, 4⟩⟩, c!"└"⟩, ⟨.when, ⟨⟨60, 3, 8⟩, ⟨63, 3, 11⟩⟩, c!"whEN"⟩, ⟨.word, ⟨⟨65, 3, 13⟩, ⟨69, 3, 17⟩⟩, c!"stuff"⟩, ⟨.word, ⟨⟨71, 3, 19⟩, ⟨72, 3, 20⟩⟩, c!"is"⟩, ⟨.word, ⟨⟨74, 3, 22⟩, ⟨77, 3, 25⟩⟩, c!"true"⟩, ⟨.corner, ⟨⟨82, 4, 4⟩, ⟨82, 4, 4⟩⟩, c!"└"⟩, ⟨.it, ⟨⟨92, 4, 8⟩, ⟨93, 4, 9⟩⟩, c!"It"⟩, ⟨.word, ⟨⟨95, 4, 11⟩, ⟨100, 4, 16⟩⟩, c!"should"⟩, ⟨.word, ⟨⟨102, 4, 18⟩, ⟨108, 4, 24⟩⟩, c!"revert."⟩]

-- `syntax/src/parser.rs`: `empty_tree`
#guard treeError "" ⟨.treeEmpty, Span.default⟩

-- `syntax/src/parser.rs`: `rootless_tree`
#guard treeError "└── It should never revert." ⟨.treeRootless, Span.default⟩

-- `syntax/src/parser.rs`: `rootless_tree`
#guard treeError "├── It should revert." ⟨.treeRootless, Span.default⟩

-- `syntax/src/parser.rs`: `rootless_tree`
#guard treeError "└── When stuff happens" ⟨.treeRootless, Span.default⟩

-- `syntax/src/parser.rs`: `rootless_tree`
#guard treeError "├── When stuff happens" ⟨.treeRootless, Span.default⟩

-- `syntax/src/parser.rs`: `rootless_tree`
#guard treeError "└── this is a description" ⟨.treeRootless, Span.default⟩

-- `syntax/src/parser.rs`: `tee_last_child_errors`
#guard treeError "Foo_Test\n├── when something bad happens\n" ⟨.teeLastChild, (Span.splat ⟨9, 2, 1⟩)⟩

-- `syntax/src/parser.rs`: `corner_not_last_child_errors`
#guard treeError "Foo_Test\n└── when something bad happens\n    └── it should revert\n└── when something happens\n    └── it should not revert\n" ⟨.cornerNotLastChild, (Span.splat ⟨9, 2, 1⟩)⟩

-- `syntax/src/parser.rs`: `only_contract_name`
#guard tree "FooTest" (.root ⟨⟨0, 1, 1⟩, ⟨6, 1, 7⟩⟩ c!"FooTest" [])

-- `syntax/src/parser.rs`: `one_child`
#guard tree "Foo_Test\n└── when something bad happens\n   └── it should revert\n" (.root ⟨⟨0, 1, 1⟩, ⟨74, 3, 23⟩⟩ c!"Foo_Test" [(.condition ⟨⟨9, 2, 1⟩, ⟨74, 3, 23⟩⟩ c!"when something bad happens" [(.action ⟨⟨49, 3, 4⟩, ⟨74, 3, 23⟩⟩ c!"it should revert" [])])])

-- `syntax/src/parser.rs`: `one_action_description`
#guard tree "Foo_Test\n└── when something bad happens\n   └── it should revert\n      └── because _bad_\n" (.root ⟨⟨0, 1, 1⟩, ⟨104, 4, 23⟩⟩ c!"Foo_Test" [(.condition ⟨⟨9, 2, 1⟩, ⟨104, 4, 23⟩⟩ c!"when something bad happens" [(.action ⟨⟨49, 3, 4⟩, ⟨104, 4, 23⟩⟩ c!"it should revert" [(.description ⟨⟨82, 4, 7⟩, ⟨104, 4, 23⟩⟩ c!"   because _bad_")])])])

-- `syntax/src/parser.rs`: `nested_action_descriptions`
#guard tree "Foo_Test\n└── when something bad happens\n   └── it should revert\n      ├── some stuff happened\n      │  └── and that stuff\n      └── was very _bad_\n" (.root ⟨⟨0, 1, 1⟩, ⟨177, 6, 24⟩⟩ c!"Foo_Test" [(.condition ⟨⟨9, 2, 1⟩, ⟨177, 6, 24⟩⟩ c!"when something bad happens" [(.action ⟨⟨49, 3, 4⟩, ⟨177, 6, 24⟩⟩ c!"it should revert" [(.description ⟨⟨82, 4, 7⟩, ⟨110, 4, 29⟩⟩ c!"   some stuff happened"), (.description ⟨⟨123, 5, 10⟩, ⟨146, 5, 27⟩⟩ c!"      and that stuff"), (.description ⟨⟨154, 6, 7⟩, ⟨177, 6, 24⟩⟩ c!"   was very _bad_")])])])

-- `syntax/src/parser.rs`: `unexpected_tokens`
#guard treeError "a └ └" ⟨(.tokenUnexpected c!"└"), (Span.splat ⟨6, 1, 5⟩)⟩

-- `syntax/src/parser.rs`: `unexpected_tokens`
#guard treeError "a ├ ├" ⟨(.tokenUnexpected c!"├"), (Span.splat ⟨6, 1, 5⟩)⟩

-- `syntax/src/parser.rs`: `unexpected_tokens`
#guard treeError "a └" ⟨.eofUnexpected, (Span.splat ⟨2, 1, 3⟩)⟩

-- `syntax/src/parser.rs`: `unexpected_tokens`
#guard treeError "a └ when" ⟨.titleMissing, ⟨⟨6, 1, 5⟩, ⟨9, 1, 8⟩⟩⟩

-- `syntax/src/parser.rs`: `unexpected_tokens`
#guard treeError "a ├" ⟨.eofUnexpected, (Span.splat ⟨2, 1, 3⟩)⟩

-- `syntax/src/parser.rs`: `unexpected_tokens`
#guard treeError "a when" ⟨.whenUnexpected, ⟨⟨2, 1, 3⟩, ⟨5, 1, 6⟩⟩⟩

-- `syntax/src/parser.rs`: `unexpected_tokens`
#guard treeError "a given" ⟨.givenUnexpected, ⟨⟨2, 1, 3⟩, ⟨6, 1, 7⟩⟩⟩

-- `syntax/src/parser.rs`: `unexpected_tokens`
#guard treeError "a it" ⟨.itUnexpected, ⟨⟨2, 1, 3⟩, ⟨3, 1, 4⟩⟩⟩

-- `syntax/src/parser.rs`: `unexpected_tokens`
#guard treeError "a b" ⟨(.wordUnexpected c!"b"), (Span.splat ⟨2, 1, 3⟩)⟩

-- `syntax/src/parser.rs`: `descriptions_are_the_only_action_children`
#guard treeError "Foo_Test\n└── when something bad happens\n   └── it should revert\n      └── it because _bad_\n" ⟨(.descriptionTokenUnexpected c!"it"), ⟨⟨92, 4, 11⟩, ⟨93, 4, 12⟩⟩⟩

-- `syntax/src/parser.rs`: `two_children`
#guard tree "FooBarTheBest_Test\n├── when stuff called\n│  └── it should revert\n└── given not stuff called\n   └── it should revert\n" (.root ⟨⟨0, 1, 1⟩, ⟨140, 5, 23⟩⟩ c!"FooBarTheBest_Test" [(.condition ⟨⟨19, 2, 1⟩, ⟨77, 3, 23⟩⟩ c!"when stuff called" [(.action ⟨⟨52, 3, 4⟩, ⟨77, 3, 23⟩⟩ c!"it should revert" [])]), (.condition ⟨⟨79, 4, 1⟩, ⟨140, 5, 23⟩⟩ c!"given not stuff called" [(.action ⟨⟨115, 5, 4⟩, ⟨140, 5, 23⟩⟩ c!"it should revert" [])])])

-- `syntax/src/parser.rs`: `parses_top_level_actions`
#guard tree "Foo\n└── It reverts when X.\n" (.root ⟨⟨0, 1, 1⟩, ⟨31, 2, 22⟩⟩ c!"Foo" [(.action ⟨⟨4, 2, 1⟩, ⟨31, 2, 22⟩⟩ c!"It reverts when X." [])])

-- `syntax/src/parser.rs`: `unsanitized_input`
#guard tree "FooB-rTheBestOf_Test\n└── when st-ff \"all'd\n   └── it should revert\n" (.root ⟨⟨0, 1, 1⟩, ⟨77, 3, 23⟩⟩ c!"FooB-rTheBestOf_Test" [(.condition ⟨⟨21, 2, 1⟩, ⟨77, 3, 23⟩⟩ c!"when st_ff alld" [(.action ⟨⟨52, 3, 4⟩, ⟨77, 3, 23⟩⟩ c!"it should revert" [])])])

-- `syntax/src/splitter.rs`: `splits_trees`
#guard splitTrees c!"Foo_Test\n└── when something bad happens\n   └── it should revert" = [c!"Foo_Test\n└── when something bad happens\n   └── it should revert"]

-- `syntax/src/splitter.rs`: `splits_trees`
#guard splitTrees c!"Foo_Test\n└── when something bad happens\n   └── it should revert\n\nFoo_Test2\n└── when something bad happens\n   └── it should revert" = [c!"Foo_Test\n└── when something bad happens\n   └── it should revert", c!"Foo_Test2\n└── when something bad happens\n   └── it should revert"]

-- `syntax/src/splitter.rs`: `splits_trees`
#guard splitTrees c!"Foo_Test\n└── when something bad happens\n   └── it should revert\n\n\nFoo_Test2\n└── when something bad happens\n   └── it should revert" = [c!"Foo_Test\n└── when something bad happens\n   └── it should revert", c!"Foo_Test2\n└── when something bad happens\n   └── it should revert"]

-- `syntax/src/splitter.rs`: `splits_trees`
#guard splitTrees c!"Foo_Test\n└── when something bad happens\n   └── it should revert\n\n\n\nFoo_Test2\n└── when something bad happens\n   └── it should revert" = [c!"Foo_Test\n└── when something bad happens\n   └── it should revert", c!"Foo_Test2\n└── when something bad happens\n   └── it should revert"]

-- `syntax/src/splitter.rs`: `splits_trees`
#guard splitTrees c!"Foo_Test\n└── when something bad happens\n   └── it should revert\n\n\n\n\nFoo_Test2\n└── when something bad happens\n   └── it should revert" = [c!"Foo_Test\n└── when something bad happens\n   └── it should revert", c!"Foo_Test2\n└── when something bad happens\n   └── it should revert"]

-- `syntax/src/utils.rs`: `to_modifier`
#guard toPascal c!"when only owner" = c!"WhenOnlyOwner"

-- `syntax/src/utils.rs`: `to_modifier`
#guard toPascal c!"when" = c!"When"

-- `syntax/src/utils.rs`: `to_modifier`
#guard toPascal c!"" = c!""

-- `syntax/src/semantics.rs`: `duplicated_condition`
#guard semErrors "Foo_Test\n├── when dup\n│   └── It 1\n├── when dup\n│   └── It 2\n└── when dup\n    └── It 3" [⟨(.identifierDuplicated [⟨⟨9, 2, 1⟩, ⟨47, 3, 12⟩⟩, ⟨⟨49, 4, 1⟩, ⟨87, 5, 12⟩⟩, ⟨⟨89, 6, 1⟩, ⟨125, 7, 12⟩⟩]), ⟨⟨9, 2, 1⟩, ⟨9, 2, 1⟩⟩⟩]

-- `syntax/src/semantics.rs`: `duplicated_top_level_action`
#guard semErrors "Foo_Test\n├── It should, match the result.\n└── It should' match the result." [⟨(.identifierDuplicated [⟨⟨9, 2, 1⟩, ⟨46, 2, 32⟩⟩, ⟨⟨48, 3, 1⟩, ⟨85, 3, 32⟩⟩]), ⟨⟨9, 2, 1⟩, ⟨9, 2, 1⟩⟩⟩]

-- `syntax/src/semantics.rs`: `condition_empty`
#guard semErrors "Foo_Test\n└── when something" [⟨.conditionEmpty, ⟨⟨9, 2, 1⟩, ⟨32, 2, 18⟩⟩⟩]

-- `syntax/src/semantics.rs`: `allow_action_without_conditions`
#guard semErrors "Foo_Test\n└── it a something" []

-- `syntax/src/semantics.rs`: `unexpected_node`
#guard analyze id (.root ⟨⟨0, 1, 1⟩, ⟨7, 1, 8⟩⟩ c!"Foo_Test" [.root ⟨⟨0, 1, 1⟩, ⟨7, 1, 8⟩⟩ c!"Foo_Test" []]) =
  [⟨.nodeUnexpected, ⟨⟨0, 1, 1⟩, ⟨7, 1, 8⟩⟩⟩]

-- `syntax/src/semantics.rs`: `test_multiple_errors`
#guard match parseOne id c!"test.sol\n├── when 1\n└── when 2" with
  | .err e => (TranslateError.syntax e).show = c!"•••••••••••••••••••••••••••••••••••••••••••••••••••••••••••••••••••••••••••••••\nbulloak error: found a condition with no children\n\n├── when 1\n^^^^^^^^^^\n\n--- (line 2, column 1) ---\n•••••••••••••••••••••••••••••••••••••••••••••••••••••••••••••••••••••••••••••••\nbulloak error: found a condition with no children\n\n└── when 2\n^^^^^^^^^^\n\n--- (line 3, column 1) ---\n"
  | _ => false

-- `foundry/src/hir/translator.rs`: `one_child`
#guard translates "Foo_Test\n└── when something bad happens\n   └── it should revert" ⟨[⟨c!"Foo_Test", [⟨c!"test_RevertWhen_SomethingBadHappens", .function, ⟨⟨9, 2, 1⟩, ⟨74, 3, 23⟩⟩, none, (some [.comment c!"it should revert", .vmSkip])⟩]⟩]⟩

-- `foundry/src/hir/translator.rs`: `two_children`
#guard translates "FooBarTheBest_Test\n├── when stuff called\n│  └── it should revert\n└── given not stuff called\n   └── it should revert" ⟨[⟨c!"FooBarTheBest_Test", [⟨c!"test_RevertWhen_StuffCalled", .function, ⟨⟨19, 2, 1⟩, ⟨77, 3, 23⟩⟩, none, (some [.comment c!"it should revert", .vmSkip])⟩, ⟨c!"test_RevertGiven_NotStuffCalled", .function, ⟨⟨79, 4, 1⟩, ⟨140, 5, 23⟩⟩, none, (some [.comment c!"it should revert", .vmSkip])⟩]⟩]⟩

-- `foundry/src/hir/translator.rs`: `action_with_sibling_condition`
#guard translates "\nFoo_Test\n└── when stuff called\n    ├── It should do stuff.\n    ├── when a called\n    │   └── it should revert\n    ├── It should do more.\n    └── when b called\n        └── it should not revert" ⟨[⟨c!"Foo_Test", [⟨c!"whenStuffCalled", .modifier, ⟨⟨10, 3, 1⟩, ⟨235, 9, 32⟩⟩, none, none⟩, ⟨c!"test_WhenStuffCalled", .function, ⟨⟨10, 3, 1⟩, ⟨235, 9, 32⟩⟩, (some [c!"whenStuffCalled"]), (some [.comment c!"It should do stuff.", .comment c!"It should do more.", .vmSkip])⟩, ⟨c!"test_RevertWhen_ACalled", .function, ⟨⟨76, 5, 5⟩, ⟨135, 6, 28⟩⟩, (some [c!"whenStuffCalled"]), (some [.comment c!"it should revert", .vmSkip])⟩, ⟨c!"test_WhenBCalled", .function, ⟨⟨174, 8, 5⟩, ⟨235, 9, 32⟩⟩, (some [c!"whenStuffCalled"]), (some [.comment c!"it should not revert", .vmSkip])⟩]⟩]⟩

-- `foundry/src/hir/combiner.rs`: `errors_when_root_contract_identifier_is_missing`
#guard match translate id Config.default c!"::orphanedFunction\n└── when something bad happens\n   └── it should revert\n\nContract::function\n└── when something bad happens\n   └── it should revert" with
  | .err (.combiner ..) => true
  | _ => false

-- `foundry/src/hir/combiner.rs`: `errors_when_contract_names_mismatch`
#guard match translate id Config.default c!"Contract::function\n└── when something bad happens\n   └── it should revert\n\n::orphanedFunction\n└── when something bad happens\n   └── it should revert" with
  | .err e => e.show = c!"•••••••••••••••••••••••••••••••••••••••••••••••••••••••••••••••••••••••••••••••\nbulloak error: contract name missing at tree root #2"
  | _ => false

-- `foundry/src/hir/combiner.rs`: `skips_non_function_children`
#guard combines "Contract::function1\n└── when something bad happens\n    └── it should revert\n\nContract::function2\n└── when something shit happens\n    └── it should revert" ⟨[⟨c!"Contract", [⟨c!"test_Function1RevertWhen_SomethingBadHappens", .function, ⟨⟨20, 2, 1⟩, ⟨86, 3, 24⟩⟩, none, (some [.comment c!"it should revert", .vmSkip])⟩, ⟨c!"test_Function2RevertWhen_SomethingShitHappens", .function, ⟨⟨20, 2, 1⟩, ⟨87, 3, 24⟩⟩, none, (some [.comment c!"it should revert", .vmSkip])⟩]⟩]⟩

-- `foundry/src/hir/combiner.rs`: `dedups_cross_root_modifiers`
#guard combines "Contract::function1\n└── when something bad happens\n    └── given something else happens\n        └── it should revert\n\nContract::function2\n└── when something bad happens\n    └── given the caller is 0x1337\n        └── it should revert" ⟨[⟨c!"Contract", [⟨c!"whenSomethingBadHappens", .modifier, ⟨⟨20, 2, 1⟩, ⟨133, 4, 28⟩⟩, none, none⟩, ⟨c!"test_Function1RevertGiven_SomethingElseHappens", .function, ⟨⟨61, 3, 5⟩, ⟨133, 4, 28⟩⟩, (some [c!"whenSomethingBadHappens"]), (some [.comment c!"it should revert", .vmSkip])⟩, ⟨c!"test_Function2RevertGiven_TheCallerIs0x1337", .function, ⟨⟨61, 3, 5⟩, ⟨131, 4, 28⟩⟩, (some [c!"whenSomethingBadHappens"]), (some [.comment c!"it should revert", .vmSkip])⟩]⟩]⟩

-- `foundry/src/scaffold/modifiers.rs`: `test_one_child`
#guard modifiers "file.sol\n└── when something bad happens\n   └── it should revert" [(c!"when something bad happens", c!"whenSomethingBadHappens")]

-- `foundry/src/scaffold/modifiers.rs`: `test_two_children`
#guard modifiers "two_children.t.sol\n├── when stuff called\n│  └── it should revert\n└── when not stuff called\n   └── it should revert" [(c!"when stuff called", c!"whenStuffCalled"), (c!"when not stuff called", c!"whenNotStuffCalled")]

-- `foundry/src/scaffold/modifiers.rs`: `test_deep_tree`
#guard modifiers "deep.sol\n├── when stuff called\n│  └── it should revert\n└── when not stuff called\n   ├── when the deposit amount is zero\n   │  └── it should revert\n   └── when the deposit amount is not zero\n      ├── when the number count is zero\n      │  └── it should revert\n      ├── when the asset is not a contract\n      │  └── it should revert\n      └── when the asset is a contract\n          ├── when the asset misses the ERC_20 return value\n          │  ├── it should create the child\n          │  ├── it should perform the ERC-20 transfers\n          │  └── it should emit a {MultipleChildren} event\n          └── when the asset does not miss the ERC_20 return value\n              ├── it should create the child\n              └── it should emit a {MultipleChildren} event" [(c!"when stuff called", c!"whenStuffCalled"), (c!"when not stuff called", c!"whenNotStuffCalled"), (c!"when the deposit amount is zero", c!"whenTheDepositAmountIsZero"), (c!"when the deposit amount is not zero", c!"whenTheDepositAmountIsNotZero"), (c!"when the number count is zero", c!"whenTheNumberCountIsZero"), (c!"when the asset is not a contract", c!"whenTheAssetIsNotAContract"), (c!"when the asset is a contract", c!"whenTheAssetIsAContract"), (c!"when the asset misses the ERC_20 return value", c!"whenTheAssetMissesTheERC_20ReturnValue"), (c!"when the asset does not miss the ERC_20 return value", c!"whenTheAssetDoesNotMissTheERC_20ReturnValue")]

-- `foundry/src/sol/fmt.rs`: `cleanups_comments`
#guard cleanupComments c!"// SPDX-License-Identifier: UNLICENSED\npragma solidity 0.8.0;\ncontract HashPairTest {function test_ShouldNeverRevert() external {\nstring __bulloak_comment__ = \"It should never revert.\";\n}\n\nmodifier whenFirstArgIsSmallerThanSecondArg() {\n_;\n}\n\nfunction test_WhenFirstArgIsSmallerThanSecondArg() external whenFirstArgIsSmallerThanSecondArg {\nstring __bulloak_comment__ = \"It should match the result of `keccak256(abi.encodePacked(a,b))`.\";\n}\n\nfunction test_WhenFirstArgIsZero() external whenFirstArgIsSmallerThanSecondArg {\nstring __bulloak_comment__ = \"It should do something.\";\n}\n\nfunction test_WhenFirstArgIsBiggerThanSecondArg() external {\nstring __bulloak_comment__ = \"It should match the result of `keccak256(abi.encodePacked(b,a))`.\";\n}}" = c!"// SPDX-License-Identifier: UNLICENSED\npragma solidity 0.8.0;\ncontract HashPairTest {function test_ShouldNeverRevert() external {\n// It should never revert.\n}\n\nmodifier whenFirstArgIsSmallerThanSecondArg() {\n_;\n}\n\nfunction test_WhenFirstArgIsSmallerThanSecondArg() external whenFirstArgIsSmallerThanSecondArg {\n// It should match the result of `keccak256(abi.encodePacked(a,b))`.\n}\n\nfunction test_WhenFirstArgIsZero() external whenFirstArgIsSmallerThanSecondArg {\n// It should do something.\n}\n\nfunction test_WhenFirstArgIsBiggerThanSecondArg() external {\n// It should match the result of `keccak256(abi.encodePacked(b,a))`.\n}}"

-- `foundry/src/sol/mod.rs`: `test_fns_match`
#guard fnsMatch ⟨c!"my_fn", .function, Span.default, none, none⟩ ⟨.function, some c!"my_fn", 0, 0⟩

-- `foundry/src/sol/mod.rs`: `test_fns_match`
#guard !fnsMatch ⟨c!"my_fn", .function, Span.default, none, none⟩ ⟨.function, some c!"not_my_fn", 0, 0⟩

-- `foundry/src/sol/mod.rs`: `test_fns_match`
#guard !fnsMatch ⟨c!"not_my_fn", .function, Span.default, none, none⟩ ⟨.function, some c!"my_fn", 0, 0⟩

-- `foundry/src/sol/mod.rs`: `test_fns_match`
#guard fnsMatch ⟨c!"my_fn", .modifier, Span.default, none, none⟩ ⟨.modifier, some c!"my_fn", 0, 0⟩

-- `foundry/src/sol/mod.rs`: `test_fns_match`
#guard !fnsMatch ⟨c!"my_fn", .modifier, Span.default, none, none⟩ ⟨.function, some c!"my_fn", 0, 0⟩

-- `foundry/src/sol/mod.rs`: `test_fns_match`
#guard !fnsMatch ⟨c!"my_fn", .function, Span.default, none, none⟩ ⟨.modifier, some c!"my_fn", 0, 0⟩

-- `foundry/src/sol/mod.rs`: `test_find_matching_fn`
#guard findMatchingFn ⟨none, 0, 0, [.fn ⟨.function, some c!"hay", 0, 0⟩, .fn ⟨.function, some c!"more_hay", 0, 0⟩, .fn ⟨.function, some c!"needle", 0, 0⟩, .fn ⟨.function, some c!"hay_more", 0, 0⟩]⟩ ⟨c!"needle", .function, Span.default, none, none⟩ = some (2, ⟨.function, some c!"needle", 0, 0⟩)

-- `foundry/src/sol/mod.rs`: `test_find_matching_fn`
#guard findMatchingFn ⟨none, 0, 0, []⟩ ⟨c!"needle", .function, Span.default, none, none⟩ = none

-- `foundry/src/scaffold/emitter.rs`: `one_child`
#guard emits Config.default "FileTest\n└── when something bad happens\n   └── it should not revert" "// SPDX-License-Identifier: UNLICENSED\npragma solidity 0.8.0;\n\ncontract FileTest {\n  function test_WhenSomethingBadHappens() external {\n    // it should not revert\n  }\n}"

-- `foundry/src/scaffold/emitter.rs`: `one_child`
#guard emits Config.default "FileTest\n└── when something bad happens\n   └── it should revert" "// SPDX-License-Identifier: UNLICENSED\npragma solidity 0.8.0;\n\ncontract FileTest {\n  function test_RevertWhen_SomethingBadHappens() external {\n    // it should revert\n  }\n}"

-- `foundry/src/scaffold/emitter.rs`: `actions_without_conditions`
#guard emits Config.default "FileTest\n├── it should do st-ff\n└── It never reverts." "// SPDX-License-Identifier: UNLICENSED\npragma solidity 0.8.0;\n\ncontract FileTest {\n  function test_ShouldDoSt_ff() external {\n    // it should do st-ff\n  }\n\n  function test_NeverReverts() external {\n    // It never reverts.\n  }\n}"

-- `foundry/src/scaffold/emitter.rs`: `actions_without_conditions`
#guard emits Config.default "FileTest\n├── it should do stuff\n└── when something happens\n    └── it should revert" "// SPDX-License-Identifier: UNLICENSED\npragma solidity 0.8.0;\n\ncontract FileTest {\n  function test_ShouldDoStuff() external {\n    // it should do stuff\n  }\n\n  function test_RevertWhen_SomethingHappens() external {\n    // it should revert\n  }\n}"

-- `foundry/src/scaffold/emitter.rs`: `actions_without_conditions`
#guard emits Config.default "FileTest\n├── it should do stuff\n├── when something happens\n│   └── it should revert\n└── it does everything" "// SPDX-License-Identifier: UNLICENSED\npragma solidity 0.8.0;\n\ncontract FileTest {\n  function test_ShouldDoStuff() external {\n    // it should do stuff\n  }\n\n  function test_RevertWhen_SomethingHappens() external {\n    // it should revert\n  }\n\n  function test_DoesEverything() external {\n    // it does everything\n  }\n}"

-- `foundry/src/scaffold/emitter.rs`: `unsanitized_input`
#guard emits Config.default "Fi-eTest\n└── when something bad happens\n   └── it should not revert" "// SPDX-License-Identifier: UNLICENSED\npragma solidity 0.8.0;\n\ncontract Fi_eTest {\n  function test_WhenSomethingBadHappens() external {\n    // it should not revert\n  }\n}"

-- `foundry/src/scaffold/emitter.rs`: `indentation`
#guard emits Config.default "FileTest\n└── when something bad happens\n   └── it should not revert" "// SPDX-License-Identifier: UNLICENSED\npragma solidity 0.8.0;\n\ncontract FileTest {\n  function test_WhenSomethingBadHappens() external {\n    // it should not revert\n  }\n}"

-- `foundry/src/scaffold/emitter.rs`: `with_vm_skip`
#guard emits { Config.default with emitVmSkip := true } "FileTest\n└── when something bad happens\n   └── it should not revert" "// SPDX-License-Identifier: UNLICENSED\npragma solidity 0.8.0;\n\ncontract FileTest {\n  function test_WhenSomethingBadHappens() external {\n    // it should not revert\n    vm.skip(true);\n  }\n}"

-- `foundry/src/scaffold/emitter.rs`: `two_children`
#guard emits Config.default "TwoChildren_Test\n├── when stuff called\n│  └── it should revert\n└── when not stuff called\n   └── it should revert" "// SPDX-License-Identifier: UNLICENSED\npragma solidity 0.8.0;\n\ncontract TwoChildren_Test {\n  function test_RevertWhen_StuffCalled() external {\n    // it should revert\n  }\n\n  function test_RevertWhen_NotStuffCalled() external {\n    // it should revert\n  }\n}"

-- `foundry/src/scaffold/emitter.rs`: `action_with_sibling_condition`
#guard emits Config.default "\nFoo_Test\n└── when stuff called\n    ├── It should do stuff.\n    ├── when a called\n    │   └── it should revert\n    ├── It should do more.\n    └── when b called\n        └── it should not revert" "// SPDX-License-Identifier: UNLICENSED\npragma solidity 0.8.0;\n\ncontract Foo_Test {\n  modifier whenStuffCalled() {\n    _;\n  }\n\n  function test_WhenStuffCalled()\n    external\n    whenStuffCalled\n  {\n    // It should do stuff.\n    // It should do more.\n  }\n\n  function test_RevertWhen_ACalled()\n    external\n    whenStuffCalled\n  {\n    // it should revert\n  }\n\n  function test_WhenBCalled()\n    external\n    whenStuffCalled\n  {\n    // it should not revert\n  }\n}"

-- `foundry/src/scaffold/emitter.rs`: `action_recollection`
#guard emits Config.default "ActionsTest\n└── when stuff called\n   ├── it should do stuff\n   ├── it should be cool\n   └── it might break\n" "// SPDX-License-Identifier: UNLICENSED\npragma solidity 0.8.0;\n\ncontract ActionsTest {\n  function test_WhenStuffCalled() external {\n    // it should do stuff\n    // it should be cool\n    // it might break\n  }\n}"

-- `foundry/src/scaffold/emitter.rs`: `first_action_revert_emits_revert_when`
#guard emits Config.default "ActionsTest\n└── when stuff called\n   ├── it should revert\n   ├── it should be cool\n   └── it might break\n" "// SPDX-License-Identifier: UNLICENSED\npragma solidity 0.8.0;\n\ncontract ActionsTest {\n  function test_RevertWhen_StuffCalled() external {\n    // it should revert\n    // it should be cool\n    // it might break\n  }\n}"

-- `foundry/src/scaffold/emitter.rs`: `weird_it_should_revert_emits_revert_when`
#guard emits Config.default "ActionsTest\n└── when stuff called\n   └── IT sHould RevERT. \n" "// SPDX-License-Identifier: UNLICENSED\npragma solidity 0.8.0;\n\ncontract ActionsTest {\n  function test_RevertWhen_StuffCalled() external {\n    // IT sHould RevERT.\n  }\n}"

-- `foundry/src/scaffold/emitter.rs`: `non_first_child_it_should_revert_doesnt_emit_revert_when`
#guard emits Config.default "ActionsTest\n└── when stuff called\n   ├── it should be cool\n   ├── it should revert\n   └── it might break\n" "// SPDX-License-Identifier: UNLICENSED\npragma solidity 0.8.0;\n\ncontract ActionsTest {\n  function test_WhenStuffCalled() external {\n    // it should be cool\n    // it should revert\n    // it might break\n  }\n}"

-- `foundry/src/scaffold/emitter.rs`: `action_descriptions`
#guard emits Config.default "DescriptionsTest\n└── when something bad happens\n   └── it should try to revert\n      ├── some stuff happened\n      │  └── and that stuff\n      └── was very _bad_" "// SPDX-License-Identifier: UNLICENSED\npragma solidity 0.8.0;\n\ncontract DescriptionsTest {\n  function test_WhenSomethingBadHappens() external {\n    // it should try to revert\n    //    some stuff happened\n    //       and that stuff\n    //    was very _bad_\n  }\n}"

-- `foundry/src/scaffold/emitter.rs`: `deep_tree`
#guard emits Config.default "DeepTest\n├── when stuff called\n│  └── it should revert\n└── when not stuff called\n   ├── when the deposit amount is zero\n   │  └── it should revert\n   └── when the deposit amount is not zero\n      ├── when the number count is zero\n      │  └── it should revert\n      ├── when the asset is not a contract\n      │  └── it should revert\n      └── given the asset is a contract\n          ├── when the asset misses the ERC-20 return value\n          │  ├── it should create the child\n          │  ├── it should perform the ERC-20 transfers\n          │  └── it should emit a {MultipleChildren} event\n          └── when the asset does not miss the ERC-20 return value\n              ├── it should create the child\n              └── it should emit a {MultipleChildren} event\n                 ├── - Because the deposit should not be 0.\n                 ├── - The number count is > 0.\n                 └── - Events should be emitted." "// SPDX-License-Identifier: UNLICENSED\npragma solidity 0.8.0;\n\ncontract DeepTest {\n  function test_RevertWhen_StuffCalled() external {\n    // it should revert\n  }\n\n  modifier whenNotStuffCalled() {\n    _;\n  }\n\n  function test_RevertWhen_TheDepositAmountIsZero()\n    external\n    whenNotStuffCalled\n  {\n    // it should revert\n  }\n\n  modifier whenTheDepositAmountIsNotZero() {\n    _;\n  }\n\n  function test_RevertWhen_TheNumberCountIsZero()\n    external\n    whenNotStuffCalled\n    whenTheDepositAmountIsNotZero\n  {\n    // it should revert\n  }\n\n  function test_RevertWhen_TheAssetIsNotAContract()\n    external\n    whenNotStuffCalled\n    whenTheDepositAmountIsNotZero\n  {\n    // it should revert\n  }\n\n  modifier givenTheAssetIsAContract() {\n    _;\n  }\n\n  function test_WhenTheAssetMissesTheERC_20ReturnValue()\n    external\n    whenNotStuffCalled\n    whenTheDepositAmountIsNotZero\n    givenTheAssetIsAContract\n  {\n    // it should create the child\n    // it should perform the ERC-20 transfers\n    // it should emit a {MultipleChildren} event\n  }\n\n  function test_WhenTheAssetDoesNotMissTheERC_20ReturnValue()\n    external\n    whenNotStuffCalled\n    whenTheDepositAmountIsNotZero\n    givenTheAssetIsAContract\n  {\n    // it should create the child\n    // it should emit a {MultipleChildren} event\n    //    - Because the deposit should not be 0.\n    //    - The number count is > 0.\n    //    - Events should be emitted.\n  }\n}"

end Bulloak.Conformance
