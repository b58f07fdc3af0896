import Verif.Conformance.Base
/-!
# Integration tests

Generated by `conformance/gen.py`.  Tests of the model, not proofs.
-/

namespace Bulloak.Conformance
attribute [local instance] asciiUcd

-- `bulloak/tests/scaffold.rs`: `scaffolds_trees`
#guard scaffolds "HashPairTest.Sanitize\n├── It should never revert.\n├── When first arg is smaller than second arg\n│   ├── When first arg is zero\n│   │   └── It should do something.\n│   └── It should match the result of `keccak256(abi.encodePacked(a,b))`.\n└── When first arg is bigger than second arg\n    └── It should match the result of `keccak256(abi.encodePacked(b,a))`.\n" "// SPDX-License-Identifier: UNLICENSED\npragma solidity 0.8.0;\n\ncontract HashPairTestSanitize {\n    function test_ShouldNeverRevert() external {\n        // It should never revert.\n    }\n\n    modifier whenFirstArgIsSmallerThanSecondArg() {\n        _;\n    }\n\n    function test_WhenFirstArgIsSmallerThanSecondArg() external whenFirstArgIsSmallerThanSecondArg {\n        // It should match the result of `keccak256(abi.encodePacked(a,b))`.\n    }\n\n    function test_WhenFirstArgIsZero() external whenFirstArgIsSmallerThanSecondArg {\n        // It should do something.\n    }\n\n    function test_WhenFirstArgIsBiggerThanSecondArg() external {\n        // It should match the result of `keccak256(abi.encodePacked(b,a))`.\n    }\n}\n" []

-- `bulloak/tests/scaffold.rs`: `scaffolds_trees`
#guard scaffolds "CancelTest\n├── when delegate called\n│  └── it should revert\n└── when not delegate called\n   ├── given the id references a null stream\n   │  └── it should revert\n   └── given the id does not reference a null stream\n      ├── given the stream is cold\n      │  ├── given the stream's status is \"DEPLETED\"\n      │  │  └── it should revert\n      │  ├── given the stream's status is \"CANCELED\"\n      │  │  └── it should revert\n      │  └── given the stream's status is \"SETTLED\"\n      │     └── it should revert\n      └── given the stream is warm\n         ├── when the caller is unauthorized\n         │  ├── when the caller is a malicious third party\n         │  │  └── it should revert\n         │  ├── when the caller is an approved third party\n         │  │  └── it should revert\n         │  └── when the caller is a former recipient\n         │     └── it should revert\n         └── when the caller is authorized\n            ├── given the stream is not cancelable\n            │  └── it should revert\n            └── given the stream is cancelable\n               ├── given the stream's status is \"PENDING\"\n               │  ├── it should cancel the stream\n               │  ├── it should mark the stream as depleted\n               │  └── it should make the stream not cancelable\n               └── given the stream's status is \"STREAMING\"\n                  ├── when the caller is the sender\n                  │  ├── given the recipient is not a contract\n                  │  │  ├── it should cancel the stream\n                  │  │  └── it should mark the stream as canceled\n                  │  └── given the recipient is a contract\n                  │     ├── given the recipient does not implement the hook\n                  │     │  ├── it should cancel the stream\n                  │     │  ├── it should mark the stream as canceled\n                  │     │  ├── it should call the recipient hook\n                  │     │  └── it should ignore the revert\n                  │     └── given the recipient implements the hook\n                  │        ├── when the recipient reverts\n                  │        │  ├── it should cancel the stream\n                  │        │  ├── it should mark the stream as canceled\n                  │        │  ├── it should call the recipient hook\n                  │        │  └── it should ignore the revert\n                  │        └── when the recipient does not revert\n                  │           ├── when there is reentrancy 1\n                  │           │  ├── it should cancel the stream\n                  │           │  ├── it should mark the stream as canceled\n                  │           │  ├── it should call the recipient hook\n                  │           │  └── it should ignore the revert\n                  │           └── when there is no reentrancy 1\n                  │              ├── it should cancel the stream\n                  │              ├── it should mark the stream as canceled\n                  │              ├── it should make the stream not cancelable\n                  │              ├── it should update the refunded amount\n                  │              ├── it should refund the sender\n                  │              ├── it should call the recipient hook\n                  │              ├── it should emit a {CancelLockupStream} event\n                  │              └── it should emit a {MetadataUpdate} event\n                  └── when the caller is the recipient\n                     ├── given the sender is not a contract\n                     │  ├── it should cancel the stream\n                     │  └── it should mark the stream as canceled\n                     └── given the sender is a contract\n                        ├── given the sender does not implement the hook\n                        │  ├── it should cancel the stream\n                        │  ├── it should mark the stream as canceled\n                        │  ├── it should call the sender hook\n                        │  └── it should ignore the revert\n                        └── given the sender implements the hook\n                              ├── when the sender reverts\n                              │  ├── it should cancel the stream\n                              │  ├── it should mark the stream as canceled\n                              │  ├── it should call the sender hook\n                              │  └── it should ignore the revert\n                              └── when the sender does not revert\n                                 ├── when there is reentrancy 2\n                                 │  ├── it should cancel the stream\n                                 │  ├── it should mark the stream as canceled\n                                 │  ├── it should call the sender hook\n                                 │  └── it should ignore the revert\n                                 └── when there is no reentrancy 2\n                                    ├── it should cancel the stream\n                                    ├── it should mark the stream as canceled\n                                    ├── it should make the stream not cancelable\n                                    ├── it should update the refunded amount\n                                    ├── it should refund the sender\n                                    ├── it should call the sender hook\n                                    ├── it should emit a {MetadataUpdate} event\n                                    └── it should emit a {CancelLockupStream} event\n" "// SPDX-License-Identifier: UNLICENSED\npragma solidity 0.8.0;\n\ncontract CancelTest {\n    function test_RevertWhen_DelegateCalled() external {\n        // it should revert\n    }\n\n    modifier whenNotDelegateCalled() {\n        _;\n    }\n\n    function test_RevertGiven_TheIdReferencesANullStream() external whenNotDelegateCalled {\n        // it should revert\n    }\n\n    modifier givenTheIdDoesNotReferenceANullStream() {\n        _;\n    }\n\n    modifier givenTheStreamIsCold() {\n        _;\n    }\n\n    function test_RevertGiven_TheStreamsStatusIsDEPLETED()\n        external\n        whenNotDelegateCalled\n        givenTheIdDoesNotReferenceANullStream\n        givenTheStreamIsCold\n    {\n        // it should revert\n    }\n\n    function test_RevertGiven_TheStreamsStatusIsCANCELED()\n        external\n        whenNotDelegateCalled\n        givenTheIdDoesNotReferenceANullStream\n        givenTheStreamIsCold\n    {\n        // it should revert\n    }\n\n    function test_RevertGiven_TheStreamsStatusIsSETTLED()\n        external\n        whenNotDelegateCalled\n        givenTheIdDoesNotReferenceANullStream\n        givenTheStreamIsCold\n    {\n        // it should revert\n    }\n\n    modifier givenTheStreamIsWarm() {\n        _;\n    }\n\n    modifier whenTheCallerIsUnauthorized() {\n        _;\n    }\n\n    function test_RevertWhen_TheCallerIsAMaliciousThirdParty()\n        external\n        whenNotDelegateCalled\n        givenTheIdDoesNotReferenceANullStream\n        givenTheStreamIsWarm\n        whenTheCallerIsUnauthorized\n    {\n        // it should revert\n    }\n\n    function test_RevertWhen_TheCallerIsAnApprovedThirdParty()\n        external\n        whenNotDelegateCalled\n        givenTheIdDoesNotReferenceANullStream\n        givenTheStreamIsWarm\n        whenTheCallerIsUnauthorized\n    {\n        // it should revert\n    }\n\n    function test_RevertWhen_TheCallerIsAFormerRecipient()\n        external\n        whenNotDelegateCalled\n        givenTheIdDoesNotReferenceANullStream\n        givenTheStreamIsWarm\n        whenTheCallerIsUnauthorized\n    {\n        // it should revert\n    }\n\n    modifier whenTheCallerIsAuthorized() {\n        _;\n    }\n\n    function test_RevertGiven_TheStreamIsNotCancelable()\n        external\n        whenNotDelegateCalled\n        givenTheIdDoesNotReferenceANullStream\n        givenTheStreamIsWarm\n        whenTheCallerIsAuthorized\n    {\n        // it should revert\n    }\n\n    modifier givenTheStreamIsCancelable() {\n        _;\n    }\n\n    function test_GivenTheStreamsStatusIsPENDING()\n        external\n        whenNotDelegateCalled\n        givenTheIdDoesNotReferenceANullStream\n        givenTheStreamIsWarm\n        whenTheCallerIsAuthorized\n        givenTheStreamIsCancelable\n    {\n        // it should cancel the stream\n        // it should mark the stream as depleted\n        // it should make the stream not cancelable\n    }\n\n    modifier givenTheStreamsStatusIsSTREAMING() {\n        _;\n    }\n\n    modifier whenTheCallerIsTheSender() {\n        _;\n    }\n\n    function test_GivenTheRecipientIsNotAContract()\n        external\n        whenNotDelegateCalled\n        givenTheIdDoesNotReferenceANullStream\n        givenTheStreamIsWarm\n        whenTheCallerIsAuthorized\n        givenTheStreamIsCancelable\n        givenTheStreamsStatusIsSTREAMING\n        whenTheCallerIsTheSender\n    {\n        // it should cancel the stream\n        // it should mark the stream as canceled\n    }\n\n    modifier givenTheRecipientIsAContract() {\n        _;\n    }\n\n    function test_GivenTheRecipientDoesNotImplementTheHook()\n        external\n        whenNotDelegateCalled\n        givenTheIdDoesNotReferenceANullStream\n        givenTheStreamIsWarm\n        whenTheCallerIsAuthorized\n        givenTheStreamIsCancelable\n        givenTheStreamsStatusIsSTREAMING\n        whenTheCallerIsTheSender\n        givenTheRecipientIsAContract\n    {\n        // it should cancel the stream\n        // it should mark the stream as canceled\n        // it should call the recipient hook\n        // it should ignore the revert\n    }\n\n    modifier givenTheRecipientImplementsTheHook() {\n        _;\n    }\n\n    function test_WhenTheRecipientReverts()\n        external\n        whenNotDelegateCalled\n        givenTheIdDoesNotReferenceANullStream\n        givenTheStreamIsWarm\n        whenTheCallerIsAuthorized\n        givenTheStreamIsCancelable\n        givenTheStreamsStatusIsSTREAMING\n        whenTheCallerIsTheSender\n        givenTheRecipientIsAContract\n        givenTheRecipientImplementsTheHook\n    {\n        // it should cancel the stream\n        // it should mark the stream as canceled\n        // it should call the recipient hook\n        // it should ignore the revert\n    }\n\n    modifier whenTheRecipientDoesNotRevert() {\n        _;\n    }\n\n    function test_WhenThereIsReentrancy1()\n        external\n        whenNotDelegateCalled\n        givenTheIdDoesNotReferenceANullStream\n        givenTheStreamIsWarm\n        whenTheCallerIsAuthorized\n        givenTheStreamIsCancelable\n        givenTheStreamsStatusIsSTREAMING\n        whenTheCallerIsTheSender\n        givenTheRecipientIsAContract\n        givenTheRecipientImplementsTheHook\n        whenTheRecipientDoesNotRevert\n    {\n        // it should cancel the stream\n        // it should mark the stream as canceled\n        // it should call the recipient hook\n        // it should ignore the revert\n    }\n\n    function test_WhenThereIsNoReentrancy1()\n        external\n        whenNotDelegateCalled\n        givenTheIdDoesNotReferenceANullStream\n        givenTheStreamIsWarm\n        whenTheCallerIsAuthorized\n        givenTheStreamIsCancelable\n        givenTheStreamsStatusIsSTREAMING\n        whenTheCallerIsTheSender\n        givenTheRecipientIsAContract\n        givenTheRecipientImplementsTheHook\n        whenTheRecipientDoesNotRevert\n    {\n        // it should cancel the stream\n        // it should mark the stream as canceled\n        // it should make the stream not cancelable\n        // it should update the refunded amount\n        // it should refund the sender\n        // it should call the recipient hook\n        // it should emit a {CancelLockupStream} event\n        // it should emit a {MetadataUpdate} event\n    }\n\n    modifier whenTheCallerIsTheRecipient() {\n        _;\n    }\n\n    function test_GivenTheSenderIsNotAContract()\n        external\n        whenNotDelegateCalled\n        givenTheIdDoesNotReferenceANullStream\n        givenTheStreamIsWarm\n        whenTheCallerIsAuthorized\n        givenTheStreamIsCancelable\n        givenTheStreamsStatusIsSTREAMING\n        whenTheCallerIsTheRecipient\n    {\n        // it should cancel the stream\n        // it should mark the stream as canceled\n    }\n\n    modifier givenTheSenderIsAContract() {\n        _;\n    }\n\n    function test_GivenTheSenderDoesNotImplementTheHook()\n        external\n        whenNotDelegateCalled\n        givenTheIdDoesNotReferenceANullStream\n        givenTheStreamIsWarm\n        whenTheCallerIsAuthorized\n        givenTheStreamIsCancelable\n        givenTheStreamsStatusIsSTREAMING\n        whenTheCallerIsTheRecipient\n        givenTheSenderIsAContract\n    {\n        // it should cancel the stream\n        // it should mark the stream as canceled\n        // it should call the sender hook\n        // it should ignore the revert\n    }\n\n    modifier givenTheSenderImplementsTheHook() {\n        _;\n    }\n\n    function test_WhenTheSenderReverts()\n        external\n        whenNotDelegateCalled\n        givenTheIdDoesNotReferenceANullStream\n        givenTheStreamIsWarm\n        whenTheCallerIsAuthorized\n        givenTheStreamIsCancelable\n        givenTheStreamsStatusIsSTREAMING\n        whenTheCallerIsTheRecipient\n        givenTheSenderIsAContract\n        givenTheSenderImplementsTheHook\n    {\n        // it should cancel the stream\n        // it should mark the stream as canceled\n        // it should call the sender hook\n        // it should ignore the revert\n    }\n\n    modifier whenTheSenderDoesNotRevert() {\n        _;\n    }\n\n    function test_WhenThereIsReentrancy2()\n        external\n        whenNotDelegateCalled\n        givenTheIdDoesNotReferenceANullStream\n        givenTheStreamIsWarm\n        whenTheCallerIsAuthorized\n        givenTheStreamIsCancelable\n        givenTheStreamsStatusIsSTREAMING\n        whenTheCallerIsTheRecipient\n        givenTheSenderIsAContract\n        givenTheSenderImplementsTheHook\n        whenTheSenderDoesNotRevert\n    {\n        // it should cancel the stream\n        // it should mark the stream as canceled\n        // it should call the sender hook\n        // it should ignore the revert\n    }\n\n    function test_WhenThereIsNoReentrancy2()\n        external\n        whenNotDelegateCalled\n        givenTheIdDoesNotReferenceANullStream\n        givenTheStreamIsWarm\n        whenTheCallerIsAuthorized\n        givenTheStreamIsCancelable\n        givenTheStreamsStatusIsSTREAMING\n        whenTheCallerIsTheRecipient\n        givenTheSenderIsAContract\n        givenTheSenderImplementsTheHook\n        whenTheSenderDoesNotRevert\n    {\n        // it should cancel the stream\n        // it should mark the stream as canceled\n        // it should make the stream not cancelable\n        // it should update the refunded amount\n        // it should refund the sender\n        // it should call the sender hook\n        // it should emit a {MetadataUpdate} event\n        // it should emit a {CancelLockupStream} event\n    }\n}\n" []

-- `bulloak/tests/scaffold.rs`: `scaffolds_trees`
#guard scaffolds "MultipleRootsTreeTest::function1\n├── It should never revert.\n└── When first arg is bigger than second arg\n    └── It is all good\n\nMultipleRootsTreeTest::function2\n└── When stuff happens\n    └── It should do something simple" "// SPDX-License-Identifier: UNLICENSED\npragma solidity 0.8.0;\n\ncontract MultipleRootsTreeTest {\n    function test_Function1ShouldNeverRevert() external {\n        // It should never revert.\n    }\n\n    function test_Function1WhenFirstArgIsBiggerThanSecondArg() external {\n        // It is all good\n    }\n\n    function test_Function2WhenStuffHappens() external {\n        // It should do something simple\n    }\n}" []

-- `bulloak/tests/scaffold.rs`: `scaffolds_trees`
#guard scaffolds "// https://github.com/alexfertel/bulloak/issues/52\n// https://github.com/alexfertel/bulloak/issues/58\nFoo\n└── It can’t do, X.\n" "// SPDX-License-Identifier: UNLICENSED\npragma solidity 0.8.0;\n\ncontract Foo {\n    function test_CantDoX() external {\n        // It can’t do, X.\n    }\n}\n" []

-- `bulloak/tests/scaffold.rs`: `scaffolds_trees`
#guard scaffolds "Utils::hashPair\n├── It should never revert.\n├── When first arg is smaller than second arg\n│   └── It should match the result of `keccak256(abi.encodePacked(a,b))`.\n└── When first arg is bigger than second arg\n    └── It should match the result of `keccak256(abi.encodePacked(b,a))`.\n\n\nUtils::min\n├── It should never revert.\n├── When first arg is smaller than second arg\n│   └── It should match the value of `a`.\n└── When first arg is bigger than second arg\n    └── It should match the value of `b`.\n\n\nUtils::max\n├── It should never revert.\n├── When first arg is smaller than second arg\n│   └── It should match the value of `b`.\n└── When first arg is bigger than second arg\n    └── It should match the value of `a`.\n" "// SPDX-License-Identifier: UNLICENSED\npragma solidity 0.8.0;\n\ncontract Utils {\n    function test_HashPairShouldNeverRevert() external {\n        // It should never revert.\n    }\n\n    function test_HashPairWhenFirstArgIsSmallerThanSecondArg() external {\n        // It should match the result of `keccak256(abi.encodePacked(a,b))`.\n    }\n\n    function test_HashPairWhenFirstArgIsBiggerThanSecondArg() external {\n        // It should match the result of `keccak256(abi.encodePacked(b,a))`.\n    }\n\n    function test_MinShouldNeverRevert() external {\n        // It should never revert.\n    }\n\n    function test_MinWhenFirstArgIsSmallerThanSecondArg() external {\n        // It should match the value of `a`.\n    }\n\n    function test_MinWhenFirstArgIsBiggerThanSecondArg() external {\n        // It should match the value of `b`.\n    }\n\n    function test_MaxShouldNeverRevert() external {\n        // It should never revert.\n    }\n\n    function test_MaxWhenFirstArgIsSmallerThanSecondArg() external {\n        // It should match the value of `b`.\n    }\n\n    function test_MaxWhenFirstArgIsBiggerThanSecondArg() external {\n        // It should match the value of `a`.\n    }\n}\n" []

-- `bulloak/tests/scaffold.rs`: `scaffolds_trees`
#guard scaffolds "FooTest\n└── When stuff is called // Comments are supported.\n    └── When a condition is met\n        └── It should revert.\n            └── Because we shouldn't allow it.\n" "// SPDX-License-Identifier: UNLICENSED\npragma solidity 0.8.0;\n\ncontract FooTest {\n    modifier whenStuffIsCalled() {\n        _;\n    }\n\n    function test_RevertWhen_AConditionIsMet() external whenStuffIsCalled {\n        // It should revert.\n        //     Because we shouldn't allow it.\n    }\n}\n" []

-- `bulloak/tests/scaffold.rs`: `scaffolds_trees`
#guard scaffolds "// This comment doesn't work\n\n// This comment works\nHashPairTest\n├── It should never revert.  // This comment also works\n├── When first arg is smaller than second arg\n│   └── It should match the result of `keccak256(abi.encodePacked(a,b))`.\n└── When first arg is bigger than second arg\n    └── It should match the result of `keccak256(abi.encodePacked(b,a))`.\n// This comment works\n\n// This comment doesn't work\n" "// SPDX-License-Identifier: UNLICENSED\npragma solidity 0.8.0;\n\ncontract HashPairTest {\n    function test_ShouldNeverRevert() external {\n        // It should never revert.\n    }\n\n    function test_WhenFirstArgIsSmallerThanSecondArg() external {\n        // It should match the result of `keccak256(abi.encodePacked(a,b))`.\n    }\n\n    function test_WhenFirstArgIsBiggerThanSecondArg() external {\n        // It should match the result of `keccak256(abi.encodePacked(b,a))`.\n    }\n}\n" []

-- `bulloak/tests/scaffold.rs`: `scaffolds_trees_with_vm_skip`
#guard scaffolds "HashPairTest.Sanitize\n├── It should never revert.\n├── When first arg is smaller than second arg\n│   ├── When first arg is zero\n│   │   └── It should do something.\n│   └── It should match the result of `keccak256(abi.encodePacked(a,b))`.\n└── When first arg is bigger than second arg\n    └── It should match the result of `keccak256(abi.encodePacked(b,a))`.\n" "// SPDX-License-Identifier: UNLICENSED\npragma solidity 0.8.0;\n\nimport {Test} from \"forge-std/Test.sol\";\n\ncontract HashPairTestSanitize is Test {\n    function test_ShouldNeverRevert() external {\n        // It should never revert.\n        vm.skip(true);\n    }\n\n    modifier whenFirstArgIsSmallerThanSecondArg() {\n        _;\n    }\n\n    function test_WhenFirstArgIsSmallerThanSecondArg() external whenFirstArgIsSmallerThanSecondArg {\n        // It should match the result of `keccak256(abi.encodePacked(a,b))`.\n        vm.skip(true);\n    }\n\n    function test_WhenFirstArgIsZero() external whenFirstArgIsSmallerThanSecondArg {\n        // It should do something.\n        vm.skip(true);\n    }\n\n    function test_WhenFirstArgIsBiggerThanSecondArg() external {\n        // It should match the result of `keccak256(abi.encodePacked(b,a))`.\n        vm.skip(true);\n    }\n}\n" ["--vm-skip"]

-- `bulloak/tests/scaffold.rs`: `scaffolds_trees_with_vm_skip`
#guard scaffolds "CancelTest\n├── when delegate called\n│  └── it should revert\n└── when not delegate called\n   ├── given the id references a null stream\n   │  └── it should revert\n   └── given the id does not reference a null stream\n      ├── given the stream is cold\n      │  ├── given the stream's status is \"DEPLETED\"\n      │  │  └── it should revert\n      │  ├── given the stream's status is \"CANCELED\"\n      │  │  └── it should revert\n      │  └── given the stream's status is \"SETTLED\"\n      │     └── it should revert\n      └── given the stream is warm\n         ├── when the caller is unauthorized\n         │  ├── when the caller is a malicious third party\n         │  │  └── it should revert\n         │  ├── when the caller is an approved third party\n         │  │  └── it should revert\n         │  └── when the caller is a former recipient\n         │     └── it should revert\n         └── when the caller is authorized\n            ├── given the stream is not cancelable\n            │  └── it should revert\n            └── given the stream is cancelable\n               ├── given the stream's status is \"PENDING\"\n               │  ├── it should cancel the stream\n               │  ├── it should mark the stream as depleted\n               │  └── it should make the stream not cancelable\n               └── given the stream's status is \"STREAMING\"\n                  ├── when the caller is the sender\n                  │  ├── given the recipient is not a contract\n                  │  │  ├── it should cancel the stream\n                  │  │  └── it should mark the stream as canceled\n                  │  └── given the recipient is a contract\n                  │     ├── given the recipient does not implement the hook\n                  │     │  ├── it should cancel the stream\n                  │     │  ├── it should mark the stream as canceled\n                  │     │  ├── it should call the recipient hook\n                  │     │  └── it should ignore the revert\n                  │     └── given the recipient implements the hook\n                  │        ├── when the recipient reverts\n                  │        │  ├── it should cancel the stream\n                  │        │  ├── it should mark the stream as canceled\n                  │        │  ├── it should call the recipient hook\n                  │        │  └── it should ignore the revert\n                  │        └── when the recipient does not revert\n                  │           ├── when there is reentrancy 1\n                  │           │  ├── it should cancel the stream\n                  │           │  ├── it should mark the stream as canceled\n                  │           │  ├── it should call the recipient hook\n                  │           │  └── it should ignore the revert\n                  │           └── when there is no reentrancy 1\n                  │              ├── it should cancel the stream\n                  │              ├── it should mark the stream as canceled\n                  │              ├── it should make the stream not cancelable\n                  │              ├── it should update the refunded amount\n                  │              ├── it should refund the sender\n                  │              ├── it should call the recipient hook\n                  │              ├── it should emit a {CancelLockupStream} event\n                  │              └── it should emit a {MetadataUpdate} event\n                  └── when the caller is the recipient\n                     ├── given the sender is not a contract\n                     │  ├── it should cancel the stream\n                     │  └── it should mark the stream as canceled\n                     └── given the sender is a contract\n                        ├── given the sender does not implement the hook\n                        │  ├── it should cancel the stream\n                        │  ├── it should mark the stream as canceled\n                        │  ├── it should call the sender hook\n                        │  └── it should ignore the revert\n                        └── given the sender implements the hook\n                              ├── when the sender reverts\n                              │  ├── it should cancel the stream\n                              │  ├── it should mark the stream as canceled\n                              │  ├── it should call the sender hook\n                              │  └── it should ignore the revert\n                              └── when the sender does not revert\n                                 ├── when there is reentrancy 2\n                                 │  ├── it should cancel the stream\n                                 │  ├── it should mark the stream as canceled\n                                 │  ├── it should call the sender hook\n                                 │  └── it should ignore the revert\n                                 └── when there is no reentrancy 2\n                                    ├── it should cancel the stream\n                                    ├── it should mark the stream as canceled\n                                    ├── it should make the stream not cancelable\n                                    ├── it should update the refunded amount\n                                    ├── it should refund the sender\n                                    ├── it should call the sender hook\n                                    ├── it should emit a {MetadataUpdate} event\n                                    └── it should emit a {CancelLockupStream} event\n" "// SPDX-License-Identifier: UNLICENSED\npragma solidity 0.8.0;\n\nimport {Test} from \"forge-std/Test.sol\";\n\ncontract CancelTest is Test {\n    function test_RevertWhen_DelegateCalled() external {\n        // it should revert\n        vm.skip(true);\n    }\n\n    modifier whenNotDelegateCalled() {\n        _;\n    }\n\n    function test_RevertGiven_TheIdReferencesANullStream() external whenNotDelegateCalled {\n        // it should revert\n        vm.skip(true);\n    }\n\n    modifier givenTheIdDoesNotReferenceANullStream() {\n        _;\n    }\n\n    modifier givenTheStreamIsCold() {\n        _;\n    }\n\n    function test_RevertGiven_TheStreamsStatusIsDEPLETED()\n        external\n        whenNotDelegateCalled\n        givenTheIdDoesNotReferenceANullStream\n        givenTheStreamIsCold\n    {\n        // it should revert\n        vm.skip(true);\n    }\n\n    function test_RevertGiven_TheStreamsStatusIsCANCELED()\n        external\n        whenNotDelegateCalled\n        givenTheIdDoesNotReferenceANullStream\n        givenTheStreamIsCold\n    {\n        // it should revert\n        vm.skip(true);\n    }\n\n    function test_RevertGiven_TheStreamsStatusIsSETTLED()\n        external\n        whenNotDelegateCalled\n        givenTheIdDoesNotReferenceANullStream\n        givenTheStreamIsCold\n    {\n        // it should revert\n        vm.skip(true);\n    }\n\n    modifier givenTheStreamIsWarm() {\n        _;\n    }\n\n    modifier whenTheCallerIsUnauthorized() {\n        _;\n    }\n\n    function test_RevertWhen_TheCallerIsAMaliciousThirdParty()\n        external\n        whenNotDelegateCalled\n        givenTheIdDoesNotReferenceANullStream\n        givenTheStreamIsWarm\n        whenTheCallerIsUnauthorized\n    {\n        // it should revert\n        vm.skip(true);\n    }\n\n    function test_RevertWhen_TheCallerIsAnApprovedThirdParty()\n        external\n        whenNotDelegateCalled\n        givenTheIdDoesNotReferenceANullStream\n        givenTheStreamIsWarm\n        whenTheCallerIsUnauthorized\n    {\n        // it should revert\n        vm.skip(true);\n    }\n\n    function test_RevertWhen_TheCallerIsAFormerRecipient()\n        external\n        whenNotDelegateCalled\n        givenTheIdDoesNotReferenceANullStream\n        givenTheStreamIsWarm\n        whenTheCallerIsUnauthorized\n    {\n        // it should revert\n        vm.skip(true);\n    }\n\n    modifier whenTheCallerIsAuthorized() {\n        _;\n    }\n\n    function test_RevertGiven_TheStreamIsNotCancelable()\n        external\n        whenNotDelegateCalled\n        givenTheIdDoesNotReferenceANullStream\n        givenTheStreamIsWarm\n        whenTheCallerIsAuthorized\n    {\n        // it should revert\n        vm.skip(true);\n    }\n\n    modifier givenTheStreamIsCancelable() {\n        _;\n    }\n\n    function test_GivenTheStreamsStatusIsPENDING()\n        external\n        whenNotDelegateCalled\n        givenTheIdDoesNotReferenceANullStream\n        givenTheStreamIsWarm\n        whenTheCallerIsAuthorized\n        givenTheStreamIsCancelable\n    {\n        // it should cancel the stream\n        // it should mark the stream as depleted\n        // it should make the stream not cancelable\n        vm.skip(true);\n    }\n\n    modifier givenTheStreamsStatusIsSTREAMING() {\n        _;\n    }\n\n    modifier whenTheCallerIsTheSender() {\n        _;\n    }\n\n    function test_GivenTheRecipientIsNotAContract()\n        external\n        whenNotDelegateCalled\n        givenTheIdDoesNotReferenceANullStream\n        givenTheStreamIsWarm\n        whenTheCallerIsAuthorized\n        givenTheStreamIsCancelable\n        givenTheStreamsStatusIsSTREAMING\n        whenTheCallerIsTheSender\n    {\n        // it should cancel the stream\n        // it should mark the stream as canceled\n        vm.skip(true);\n    }\n\n    modifier givenTheRecipientIsAContract() {\n        _;\n    }\n\n    function test_GivenTheRecipientDoesNotImplementTheHook()\n        external\n        whenNotDelegateCalled\n        givenTheIdDoesNotReferenceANullStream\n        givenTheStreamIsWarm\n        whenTheCallerIsAuthorized\n        givenTheStreamIsCancelable\n        givenTheStreamsStatusIsSTREAMING\n        whenTheCallerIsTheSender\n        givenTheRecipientIsAContract\n    {\n        // it should cancel the stream\n        // it should mark the stream as canceled\n        // it should call the recipient hook\n        // it should ignore the revert\n        vm.skip(true);\n    }\n\n    modifier givenTheRecipientImplementsTheHook() {\n        _;\n    }\n\n    function test_WhenTheRecipientReverts()\n        external\n        whenNotDelegateCalled\n        givenTheIdDoesNotReferenceANullStream\n        givenTheStreamIsWarm\n        whenTheCallerIsAuthorized\n        givenTheStreamIsCancelable\n        givenTheStreamsStatusIsSTREAMING\n        whenTheCallerIsTheSender\n        givenTheRecipientIsAContract\n        givenTheRecipientImplementsTheHook\n    {\n        // it should cancel the stream\n        // it should mark the stream as canceled\n        // it should call the recipient hook\n        // it should ignore the revert\n        vm.skip(true);\n    }\n\n    modifier whenTheRecipientDoesNotRevert() {\n        _;\n    }\n\n    function test_WhenThereIsReentrancy1()\n        external\n        whenNotDelegateCalled\n        givenTheIdDoesNotReferenceANullStream\n        givenTheStreamIsWarm\n        whenTheCallerIsAuthorized\n        givenTheStreamIsCancelable\n        givenTheStreamsStatusIsSTREAMING\n        whenTheCallerIsTheSender\n        givenTheRecipientIsAContract\n        givenTheRecipientImplementsTheHook\n        whenTheRecipientDoesNotRevert\n    {\n        // it should cancel the stream\n        // it should mark the stream as canceled\n        // it should call the recipient hook\n        // it should ignore the revert\n        vm.skip(true);\n    }\n\n    function test_WhenThereIsNoReentrancy1()\n        external\n        whenNotDelegateCalled\n        givenTheIdDoesNotReferenceANullStream\n        givenTheStreamIsWarm\n        whenTheCallerIsAuthorized\n        givenTheStreamIsCancelable\n        givenTheStreamsStatusIsSTREAMING\n        whenTheCallerIsTheSender\n        givenTheRecipientIsAContract\n        givenTheRecipientImplementsTheHook\n        whenTheRecipientDoesNotRevert\n    {\n        // it should cancel the stream\n        // it should mark the stream as canceled\n        // it should make the stream not cancelable\n        // it should update the refunded amount\n        // it should refund the sender\n        // it should call the recipient hook\n        // it should emit a {CancelLockupStream} event\n        // it should emit a {MetadataUpdate} event\n        vm.skip(true);\n    }\n\n    modifier whenTheCallerIsTheRecipient() {\n        _;\n    }\n\n    function test_GivenTheSenderIsNotAContract()\n        external\n        whenNotDelegateCalled\n        givenTheIdDoesNotReferenceANullStream\n        givenTheStreamIsWarm\n        whenTheCallerIsAuthorized\n        givenTheStreamIsCancelable\n        givenTheStreamsStatusIsSTREAMING\n        whenTheCallerIsTheRecipient\n    {\n        // it should cancel the stream\n        // it should mark the stream as canceled\n        vm.skip(true);\n    }\n\n    modifier givenTheSenderIsAContract() {\n        _;\n    }\n\n    function test_GivenTheSenderDoesNotImplementTheHook()\n        external\n        whenNotDelegateCalled\n        givenTheIdDoesNotReferenceANullStream\n        givenTheStreamIsWarm\n        whenTheCallerIsAuthorized\n        givenTheStreamIsCancelable\n        givenTheStreamsStatusIsSTREAMING\n        whenTheCallerIsTheRecipient\n        givenTheSenderIsAContract\n    {\n        // it should cancel the stream\n        // it should mark the stream as canceled\n        // it should call the sender hook\n        // it should ignore the revert\n        vm.skip(true);\n    }\n\n    modifier givenTheSenderImplementsTheHook() {\n        _;\n    }\n\n    function test_WhenTheSenderReverts()\n        external\n        whenNotDelegateCalled\n        givenTheIdDoesNotReferenceANullStream\n        givenTheStreamIsWarm\n        whenTheCallerIsAuthorized\n        givenTheStreamIsCancelable\n        givenTheStreamsStatusIsSTREAMING\n        whenTheCallerIsTheRecipient\n        givenTheSenderIsAContract\n        givenTheSenderImplementsTheHook\n    {\n        // it should cancel the stream\n        // it should mark the stream as canceled\n        // it should call the sender hook\n        // it should ignore the revert\n        vm.skip(true);\n    }\n\n    modifier whenTheSenderDoesNotRevert() {\n        _;\n    }\n\n    function test_WhenThereIsReentrancy2()\n        external\n        whenNotDelegateCalled\n        givenTheIdDoesNotReferenceANullStream\n        givenTheStreamIsWarm\n        whenTheCallerIsAuthorized\n        givenTheStreamIsCancelable\n        givenTheStreamsStatusIsSTREAMING\n        whenTheCallerIsTheRecipient\n        givenTheSenderIsAContract\n        givenTheSenderImplementsTheHook\n        whenTheSenderDoesNotRevert\n    {\n        // it should cancel the stream\n        // it should mark the stream as canceled\n        // it should call the sender hook\n        // it should ignore the revert\n        vm.skip(true);\n    }\n\n    function test_WhenThereIsNoReentrancy2()\n        external\n        whenNotDelegateCalled\n        givenTheIdDoesNotReferenceANullStream\n        givenTheStreamIsWarm\n        whenTheCallerIsAuthorized\n        givenTheStreamIsCancelable\n        givenTheStreamsStatusIsSTREAMING\n        whenTheCallerIsTheRecipient\n        givenTheSenderIsAContract\n        givenTheSenderImplementsTheHook\n        whenTheSenderDoesNotRevert\n    {\n        // it should cancel the stream\n        // it should mark the stream as canceled\n        // it should make the stream not cancelable\n        // it should update the refunded amount\n        // it should refund the sender\n        // it should call the sender hook\n        // it should emit a {MetadataUpdate} event\n        // it should emit a {CancelLockupStream} event\n        vm.skip(true);\n    }\n}\n" ["--vm-skip"]

-- `bulloak/tests/scaffold.rs`: `scaffolds_trees_with_vm_skip`
#guard scaffolds "MultipleRootsTreeTest::function1\n├── It should never revert.\n└── When first arg is bigger than second arg\n    └── It is all good\n\nMultipleRootsTreeTest::function2\n└── When stuff happens\n    └── It should do something simple" "// SPDX-License-Identifier: UNLICENSED\npragma solidity 0.8.0;\n\nimport {Test} from \"forge-std/Test.sol\";\n\ncontract MultipleRootsTreeTest is Test {\n    function test_Function1ShouldNeverRevert() external {\n        // It should never revert.\n        vm.skip(true);\n    }\n\n    function test_Function1WhenFirstArgIsBiggerThanSecondArg() external {\n        // It is all good\n        vm.skip(true);\n    }\n\n    function test_Function2WhenStuffHappens() external {\n        // It should do something simple\n        vm.skip(true);\n    }\n}" ["--vm-skip"]

-- `bulloak/tests/scaffold.rs`: `scaffolds_trees_with_vm_skip`
#guard scaffolds "// https://github.com/alexfertel/bulloak/issues/52\n// https://github.com/alexfertel/bulloak/issues/58\nFoo\n└── It can’t do, X.\n" "// SPDX-License-Identifier: UNLICENSED\npragma solidity 0.8.0;\n\nimport {Test} from \"forge-std/Test.sol\";\n\ncontract Foo is Test {\n    function test_CantDoX() external {\n        // It can’t do, X.\n        vm.skip(true);\n    }\n}\n" ["--vm-skip"]

-- `bulloak/tests/scaffold.rs`: `scaffolds_trees_with_skip_modifiers`
#guard scaffolds "HashPairTest.Sanitize\n├── It should never revert.\n├── When first arg is smaller than second arg\n│   ├── When first arg is zero\n│   │   └── It should do something.\n│   └── It should match the result of `keccak256(abi.encodePacked(a,b))`.\n└── When first arg is bigger than second arg\n    └── It should match the result of `keccak256(abi.encodePacked(b,a))`.\n" "// SPDX-License-Identifier: UNLICENSED\npragma solidity 0.8.0;\n\ncontract HashPairTestSanitize {\n    function test_ShouldNeverRevert() external {\n        // It should never revert.\n    }\n\n    function test_WhenFirstArgIsSmallerThanSecondArg() external whenFirstArgIsSmallerThanSecondArg {\n        // It should match the result of `keccak256(abi.encodePacked(a,b))`.\n    }\n\n    function test_WhenFirstArgIsZero() external whenFirstArgIsSmallerThanSecondArg {\n        // It should do something.\n    }\n\n    function test_WhenFirstArgIsBiggerThanSecondArg() external {\n        // It should match the result of `keccak256(abi.encodePacked(b,a))`.\n    }\n}\n" ["-m"]

-- `bulloak/tests/scaffold.rs`: `skips_trees_when_file_exists`
#guard c!"warn".isPrefixOf (runOn [("a.tree", "HashPairTest.Sanitize\n├── It should never revert.\n├── When first arg is smaller than second arg\n│   ├── When first arg is zero\n│   │   └── It should do something.\n│   └── It should match the result of `keccak256(abi.encodePacked(a,b))`.\n└── When first arg is bigger than second arg\n    └── It should match the result of `keccak256(abi.encodePacked(b,a))`.\n"), ("a.t.sol", "")] ["scaffold", "a.tree", "-w"]).2.1

-- `bulloak/tests/scaffold.rs`: `skips_trees_when_file_exists`
#guard c!"warn".isPrefixOf (runOn [("a.tree", "CancelTest\n├── when delegate called\n│  └── it should revert\n└── when not delegate called\n   ├── given the id references a null stream\n   │  └── it should revert\n   └── given the id does not reference a null stream\n      ├── given the stream is cold\n      │  ├── given the stream's status is \"DEPLETED\"\n      │  │  └── it should revert\n      │  ├── given the stream's status is \"CANCELED\"\n      │  │  └── it should revert\n      │  └── given the stream's status is \"SETTLED\"\n      │     └── it should revert\n      └── given the stream is warm\n         ├── when the caller is unauthorized\n         │  ├── when the caller is a malicious third party\n         │  │  └── it should revert\n         │  ├── when the caller is an approved third party\n         │  │  └── it should revert\n         │  └── when the caller is a former recipient\n         │     └── it should revert\n         └── when the caller is authorized\n            ├── given the stream is not cancelable\n            │  └── it should revert\n            └── given the stream is cancelable\n               ├── given the stream's status is \"PENDING\"\n               │  ├── it should cancel the stream\n               │  ├── it should mark the stream as depleted\n               │  └── it should make the stream not cancelable\n               └── given the stream's status is \"STREAMING\"\n                  ├── when the caller is the sender\n                  │  ├── given the recipient is not a contract\n                  │  │  ├── it should cancel the stream\n                  │  │  └── it should mark the stream as canceled\n                  │  └── given the recipient is a contract\n                  │     ├── given the recipient does not implement the hook\n                  │     │  ├── it should cancel the stream\n                  │     │  ├── it should mark the stream as canceled\n                  │     │  ├── it should call the recipient hook\n                  │     │  └── it should ignore the revert\n                  │     └── given the recipient implements the hook\n                  │        ├── when the recipient reverts\n                  │        │  ├── it should cancel the stream\n                  │        │  ├── it should mark the stream as canceled\n                  │        │  ├── it should call the recipient hook\n                  │        │  └── it should ignore the revert\n                  │        └── when the recipient does not revert\n                  │           ├── when there is reentrancy 1\n                  │           │  ├── it should cancel the stream\n                  │           │  ├── it should mark the stream as canceled\n                  │           │  ├── it should call the recipient hook\n                  │           │  └── it should ignore the revert\n                  │           └── when there is no reentrancy 1\n                  │              ├── it should cancel the stream\n                  │              ├── it should mark the stream as canceled\n                  │              ├── it should make the stream not cancelable\n                  │              ├── it should update the refunded amount\n                  │              ├── it should refund the sender\n                  │              ├── it should call the recipient hook\n                  │              ├── it should emit a {CancelLockupStream} event\n                  │              └── it should emit a {MetadataUpdate} event\n                  └── when the caller is the recipient\n                     ├── given the sender is not a contract\n                     │  ├── it should cancel the stream\n                     │  └── it should mark the stream as canceled\n                     └── given the sender is a contract\n                        ├── given the sender does not implement the hook\n                        │  ├── it should cancel the stream\n                        │  ├── it should mark the stream as canceled\n                        │  ├── it should call the sender hook\n                        │  └── it should ignore the revert\n                        └── given the sender implements the hook\n                              ├── when the sender reverts\n                              │  ├── it should cancel the stream\n                              │  ├── it should mark the stream as canceled\n                              │  ├── it should call the sender hook\n                              │  └── it should ignore the revert\n                              └── when the sender does not revert\n                                 ├── when there is reentrancy 2\n                                 │  ├── it should cancel the stream\n                                 │  ├── it should mark the stream as canceled\n                                 │  ├── it should call the sender hook\n                                 │  └── it should ignore the revert\n                                 └── when there is no reentrancy 2\n                                    ├── it should cancel the stream\n                                    ├── it should mark the stream as canceled\n                                    ├── it should make the stream not cancelable\n                                    ├── it should update the refunded amount\n                                    ├── it should refund the sender\n                                    ├── it should call the sender hook\n                                    ├── it should emit a {MetadataUpdate} event\n                                    └── it should emit a {CancelLockupStream} event\n"), ("a.t.sol", "")] ["scaffold", "a.tree", "-w"]).2.1

-- `bulloak/tests/scaffold.rs`: `skips_trees_when_file_exists`
#guard c!"warn".isPrefixOf (runOn [("a.tree", "MultipleRootsTreeTest::function1\n├── It should never revert.\n└── When first arg is bigger than second arg\n    └── It is all good\n\nMultipleRootsTreeTest::function2\n└── When stuff happens\n    └── It should do something simple"), ("a.t.sol", "")] ["scaffold", "a.tree", "-w"]).2.1

-- `bulloak/tests/scaffold.rs`: `errors (empty)`
#guard refuses "" "found an empty tree"

-- `bulloak/tests/scaffold.rs`: `errors (duplicated_condition)`
#guard refuses "HashPairTest\n├── When first arg is smaller than second arg\n│   └── It should match the result of `keccak256(abi.encodePacked(a,b))`.\n├── When first arg is smaller than second arg\n│   └── It should match the result of `keccak256(abi.encodePacked(a,b))`.\n└── When first arg is smaller than second arg\n    └── It should match the result of `keccak256(abi.encodePacked(b,a))`.\n" "found an identifier more than once"

-- `bulloak/tests/scaffold.rs`: `errors (duplicated_top_action)`
#guard refuses "HashPairTest\n├── It should, match the result.\n└── It should' match the result.\n" "found an identifier more than once"

-- `bulloak/tests/scaffold.rs`: `errors (contract_name_missing_multiple_roots)`
#guard refuses "::function1\n└── It should have a name mismatch in the contracts.\n\nContractName::function2\n└── It should have a name mismatch in the contracts." "contract name missing at tree root #1"

-- `bulloak/tests/check.rs`: `checks_invalid_structural_match`
#guard complains [("invalid_sol_structure.tree", "CancelTest\n├── when delegate called\n│  └── it should revert\n└── when not delegate called\n   ├── given the id references a null stream\n   │  └── it should revert\n   └── given the id does not reference a null stream\n      ├── given the stream is cold\n      │  ├── given the stream's status is \"DEPLETED\"\n      │  │  └── it should revert\n      │  ├── given the stream's status is \"CANCELED\"\n      │  │  └── it should revert\n      │  └── given the stream's status is \"SETTLED\"\n      │     └── it should revert\n      └── given the stream is warm\n         └── when the caller is authorized\n            ├── given the stream is not cancelable\n            │  └── it should revert\n            ├── given the sender is not a contract\n            │  ├── it should cancel the stream\n            │  └── it should mark the stream as canceled\n            └── given the sender is a contract\n               ├── given the sender does not implement the hook\n               │  ├── it should cancel the stream\n               │  ├── it should mark the stream as canceled\n               │  ├── it should call the sender hook\n               │  └── it should ignore the revert\n               └── given the sender implements the hook\n                     ├── when the sender reverts\n                     │  ├── it should cancel the stream\n                     │  ├── it should mark the stream as canceled\n                     │  ├── it should call the sender hook\n                     │  └── it should ignore the revert\n                     └── when the sender does not revert\n                        ├── when there is reentrancy\n                        │  ├── it should cancel the stream\n                        │  ├── it should mark the stream as canceled\n                        │  ├── it should call the sender hook\n                        │  └── it should ignore the revert\n                        └── when there is no reentrancy\n                           ├── it should cancel the stream\n                           ├── it should mark the stream as canceled\n                           ├── it should make the stream not cancelable\n                           ├── it should update the refunded amount\n                           ├── it should refund the sender\n                           ├── it should call the sender hook\n                           ├── it should emit a {MetadataUpdate} event\n                           └── it should emit a {CancelLockupStream} event\n"), ("invalid_sol_structure.t.sol", "// SPDX-License-Identifier: UNLICENSED\npragma solidity 0.8.0;\n\ncontract CancelTest {\n  function test_RevertWhen_DelegateCalled() external {\n    // it should revert\n  }\n\n  modifier whenNotDelegateCalled() {\n    _;\n  }\n\n  function test_RevertGiven_TheIdReferencesANullStream()\n    external\n    whenNotDelegateCalled\n  {\n    // it should revert\n  }\n\n  modifier givenTheIdDoesNotReferenceANullStream() {\n    _;\n  }\n\n  function test_RevertGiven_TheStreamsStatusIsDEPLETED()\n    external\n    whenNotDelegateCalled\n    givenTheIdDoesNotReferenceANullStream\n    givenTheStreamIsCold\n  {\n    // it should revert\n  }\n\n  function test_RevertGiven_TheStreamsStatusIsSETTLED()\n    external\n    whenNotDelegateCalled\n    givenTheIdDoesNotReferenceANullStream\n    givenTheStreamIsCold\n  {\n    // it should revert\n  }\n\n  function test_RevertGiven_TheStreamsStatusIsCANCELED()\n    external\n    whenNotDelegateCalled\n    givenTheIdDoesNotReferenceANullStream\n    givenTheStreamIsCold\n  {\n    // it should revert\n  }\n\n  modifier givenTheStreamIsWarm() {\n    _;\n  }\n\n  modifier whenTheCallerIsAuthorized() {\n    _;\n  }\n\n  function test_RevertGiven_TheStreamIsNotCancelable()\n    external\n    whenNotDelegateCalled\n    givenTheIdDoesNotReferenceANullStream\n    givenTheStreamIsWarm\n    whenTheCallerIsAuthorized\n  {\n    // it should revert\n  }\n\n  function test_GivenTheSenderIsNotAContract()\n    external\n    whenNotDelegateCalled\n    givenTheIdDoesNotReferenceANullStream\n    givenTheStreamIsWarm\n    whenTheCallerIsAuthorized\n  {\n    // it should cancel the stream\n    // it should mark the stream as canceled\n  }\n\n  modifier givenTheSenderIsAContract() {\n    _;\n  }\n\n  function test_GivenTheSenderDoesNotImplementTheHook()\n    external\n    whenNotDelegateCalled\n    givenTheIdDoesNotReferenceANullStream\n    givenTheStreamIsWarm\n    whenTheCallerIsAuthorized\n    givenTheSenderIsAContract\n  {\n    // it should cancel the stream\n    // it should mark the stream as canceled\n    // it should call the sender hook\n    // it should ignore the revert\n  }\n\n  modifier givenTheSenderImplementsTheHook() {\n    _;\n  }\n\n  function test_WhenThereIsReentrancy()\n    external\n    whenNotDelegateCalled\n    givenTheIdDoesNotReferenceANullStream\n    givenTheStreamIsWarm\n    whenTheCallerIsAuthorized\n    givenTheSenderIsAContract\n    givenTheSenderImplementsTheHook\n    whenTheSenderDoesNotRevert\n  {\n    // it should cancel the stream\n    // it should mark the stream as canceled\n    // it should call the sender hook\n    // it should ignore the revert\n  }\n\n  function test_WhenTheSenderReverts()\n    external\n    whenNotDelegateCalled\n    givenTheIdDoesNotReferenceANullStream\n    givenTheStreamIsWarm\n    whenTheCallerIsAuthorized\n    givenTheSenderIsAContract\n    givenTheSenderImplementsTheHook\n  {\n    // it should cancel the stream\n    // it should mark the stream as canceled\n    // it should call the sender hook\n    // it should ignore the revert\n  }\n\n  function test_WhenThereIsNoReentrancy()\n    external\n    whenNotDelegateCalled\n    givenTheIdDoesNotReferenceANullStream\n    givenTheStreamIsWarm\n    whenTheCallerIsAuthorized\n    givenTheSenderIsAContract\n    givenTheSenderImplementsTheHook\n    whenTheSenderDoesNotRevert\n  {\n    // it should cancel the stream\n    // it should mark the stream as canceled\n    // it should make the stream not cancelable\n    // it should update the refunded amount\n    // it should refund the sender\n    // it should call the sender hook\n    // it should emit a {MetadataUpdate} event\n    // it should emit a {CancelLockupStream} event\n  }\n}\n")] ["check", "invalid_sol_structure.tree"] ["warn: function \"givenTheStreamIsCold\" is missing in .sol", "\nwarn: function \"whenTheSenderDoesNotRevert\" is missing in .sol", "\nwarn: incorrect position for function `test_RevertGiven_TheStreamsStatusIsCANCELED`", "\nwarn: incorrect position for function `test_WhenTheSenderReverts`"]

-- `bulloak/tests/check.rs`: `checks_valid_structural_match`
#guard passes [("extra_codegen_sol.tree", "HashPairTest\n├── It should never revert.\n├── When first arg is smaller than second arg\n│       └── It should match the result of `keccak256(abi.encodePacked(a,b))`.\n└── When first arg is bigger than second arg\n        └── It should match the result of `keccak256(abi.encodePacked(b,a))`.\n"), ("extra_codegen_sol.t.sol", "// SPDX-License-Identifier: UNLICENSED\npragma solidity 0.8.0;\n\ncontract HashPairTest {\n  function test_ShouldNeverRevert() external {\n    // It should never revert.\n  }\n\n  modifier thisisAnExtraModifier() {\n    // It has a random comment inside.\n    _;\n  }\n\n  modifier whenFirstArgIsSmallerThanSecondArg() {\n    _;\n  }\n\n  function thisIsAnExtraFunction() {\n    // It has a random comment inside.\n  }\n\n  function test_WhenFirstArgIsSmallerThanSecondArg()\n    external\n    whenFirstArgIsSmallerThanSecondArg\n  {\n    // It should match the result of `keccak256(abi.encodePacked(a,b))`.\n  }\n\n  modifier whenFirstArgIsBiggerThanSecondArg() {\n    _;\n  }\n\n  function thisIsAnotherExtraFunction() {\n    // It has a random comment inside.\n  }\n\n  function test_WhenFirstArgIsBiggerThanSecondArg()\n    external\n    whenFirstArgIsBiggerThanSecondArg\n  {\n    // It should match the result of `keccak256(abi.encodePacked(b,a))`.\n  }\n}\n")] ["check", "extra_codegen_sol.tree"]

-- `bulloak/tests/check.rs`: `checks_modifiers_skipped`
#guard passes [("skip_modifiers.tree", "HashPairTest.Sanitize\n├── It should never revert.\n├── When first arg is smaller than second arg\n│   ├── When first arg is zero\n│   │   └── It should do something.\n│   └── It should match the result of `keccak256(abi.encodePacked(a,b))`.\n└── When first arg is bigger than second arg\n    └── It should match the result of `keccak256(abi.encodePacked(b,a))`.\n"), ("skip_modifiers.t.sol", "// SPDX-License-Identifier: UNLICENSED\npragma solidity 0.8.0;\n\ncontract HashPairTestSanitize {\n    function test_ShouldNeverRevert() external {\n        // It should never revert.\n    }\n\n    function test_WhenFirstArgIsSmallerThanSecondArg() external whenFirstArgIsSmallerThanSecondArg {\n        // It should match the result of `keccak256(abi.encodePacked(a,b))`.\n    }\n\n    function test_WhenFirstArgIsZero() external whenFirstArgIsSmallerThanSecondArg {\n        // It should do something.\n    }\n\n    function test_WhenFirstArgIsBiggerThanSecondArg() external {\n        // It should match the result of `keccak256(abi.encodePacked(b,a))`.\n    }\n}\n")] ["check", "skip_modifiers.tree", "-m"]

-- `bulloak/tests/check.rs`: `checks_modifiers_skipped_issue_81`
#guard complains [("issue_81.tree", "RecentAmountOf_Integration_Concrete_Test\n├── given null\n│  └── it should revert\n└── given not null\n   ├── given paused\n   │  └── it should return zero\n   └── given not paused\n      ├── when last updated time in present\n      │  └── it should return zero\n      └── when last updated time in past\n         └── it should return the correct recent amount\n"), ("issue_81.t.sol", "// SPDX-License-Identifier: UNLICENSED\npragma solidity >=0.8.22;\n\nimport {Integration_Test} from \"../../Integration.t.sol\";\n\ncontract RecentAmountOf_Integration_Concrete_Test is Integration_Test {\n    function test_RevertGiven_Null() external {\n        bytes memory callData = abi.encodeCall(\n            flow.recentAmountOf,\n            nullStreamId\n        );\n        expectRevert_Null(callData);\n    }\n\n    function test_GivenPaused() external givenNotNull {\n        flow.pause(defaultStreamId);\n\n        // It should return zero.\n        uint128 recentAmount = flow.recentAmountOf(defaultStreamId);\n        assertEq(recentAmount, 0, \"recent amount\");\n    }\n\n    function test_WhenLastUpdatedTimeInPresent()\n        external\n        givenNotNull\n        givenNotPaused\n    {\n        // Update the last time to the current block timestamp.\n        updateLastTimeToBlockTimestamp(defaultStreamId);\n\n        // It should return zero.\n        uint128 recentAmount = flow.recentAmountOf(defaultStreamId);\n        assertEq(recentAmount, 0, \"recent amount\");\n    }\n\n    function test_BlahBlahBlah() external view givenNotNull givenNotPaused {\n        // It should return the correct recent amount.\n        uint128 recentAmount = flow.recentAmountOf(defaultStreamId);\n        assertEq(recentAmount, ONE_MONTH_STREAMED_AMOUNT, \"recent amount\");\n    }\n}\n")] ["check", "issue_81.tree", "-m"] ["function \"test_WhenLastUpdatedTimeInPast\" is missing in .sol"]

-- `bulloak/tests/check.rs`: `checks_missing_sol_file`
#guard complains [("no_matching_sol.tree", "NoMatchingSol\n└── It should not find the solidity file.\n")] ["check", "no_matching_sol.tree"] ["the tree is missing its matching Solidity file", "no_matching_sol.tree"]

-- `bulloak/tests/check.rs`: `checks_empty_contract`
#guard complains [("empty_contract.tree", "EmptyContract\n├── It should never revert.\n└── It should not find the solidity file.\n"), ("empty_contract.t.sol", "pragma solidity 0.8.0;\n\ncontract EmptyContract {\n}\n")] ["check", "empty_contract.tree"] ["function \"test_ShouldNeverRevert\" is missing in .sol", "function \"test_ShouldNotFindTheSolidityFile\" is missing in .sol"]

-- `bulloak/tests/check.rs`: `checks_missing_contract`
#guard complains [("missing_contract.tree", "MissingContract\n└── It should not find a contract in the Solidity file.\n"), ("missing_contract.t.sol", "")] ["check", "missing_contract.tree"] ["contract \"MissingContract\" is missing in .sol"]

-- `bulloak/tests/check.rs`: `checks_missing_contract_identifier`
#guard complains [("missing_contract_identifier.tree", "ContractName::func1\n└── It should find a contract identifier.\n\n::orphanedFunction\n└── It should not find a contract identifier.\n"), ("missing_contract_identifier.t.sol", "// SPDX-License-Identifier: UNLICENSED\npragma solidity 0.8.0;\n\ncontract ContractName {\n  function test_ShouldFindAContractIdentifier() external {\n    // It should find a contract identifier.\n  }\n  \n  function test_ShouldNotFindAContractIdentifier() external {\n    // It should not find a contract identifier.\n  }\n}\n")] ["check", "missing_contract_identifier.tree"] ["an error occurred while parsing the tree: contract name missing at tree root #2"]

-- `bulloak/tests/check.rs`: `checks_contract_name_mismatch`
#guard complains [("contract_names_mismatch.tree", "ContractName\n└── It should have a name mismatch in the contracts.\n"), ("contract_names_mismatch.t.sol", "// SPDX-License-Identifier: UNLICENSED\npragma solidity 0.8.0;\n\ncontract ADifferentName {\n  function test_ShouldHaveANameMismatchInTheContracts() external {\n    // It should match the result of `keccak256(abi.encodePacked(a,b))`.\n  }\n}\n")] ["check", "contract_names_mismatch.tree"] ["contract \"ContractName\" is missing in .sol -- found \"ADifferentName\" instead"]

-- `bulloak/tests/check.rs`: `checks_contract_name_mismatch_multiple_roots`
#guard complains [("contract_names_mismatch_multiple_roots.tree", "ContractName::func1\n└── It should have a name mismatch in the contracts.\n\nMismatchedContractName::func2\n└── It should have a name mismatch in the contracts.\n"), ("contract_names_mismatch_multiple_roots.t.sol", "// SPDX-License-Identifier: UNLICENSED\npragma solidity 0.8.0;\n\ncontract ContractName {\n  function test_ShouldHaveANameMismatchInTheContracts1() external {\n    // It should match the result of `keccak256(abi.encodePacked(a,b))`.\n  }\n  \n  function test_ShouldHaveANameMismatchInTheContracts2() external {\n    // It should match the result of `keccak256(abi.encodePacked(a,b))`.\n  }\n}")] ["check", "contract_names_mismatch_multiple_roots.tree"] ["an error occurred while parsing the tree: contract name mismatch: expected 'ContractName', found 'MismatchedContractName'"]

-- `bulloak/tests/check.rs`: `checks_invalid_tree`
#guard complains [("invalid.tree", "HashPairTest\n├── \n├── When first arg is smaller than second arg\n│       └── It should match the result of `keccak256(abi.encodePacked(a,b))`.\n└── When first arg is bigger than second arg\n        └── It should match the result of `keccak256(abi.encodePacked(b,a))`.\n")] ["check", "invalid.tree"] ["an error occurred while parsing the tree: unexpected token '├'"]

-- `bulloak/tests/check.rs`: `fixes_non_matching_contract_names`
#guard fixes [("contract_names_mismatch.tree", "ContractName\n└── It should have a name mismatch in the contracts.\n"), ("contract_names_mismatch.t.sol", "// SPDX-License-Identifier: UNLICENSED\npragma solidity 0.8.0;\n\ncontract ADifferentName {\n  function test_ShouldHaveANameMismatchInTheContracts() external {\n    // It should match the result of `keccak256(abi.encodePacked(a,b))`.\n  }\n}\n")] ["check", "contract_names_mismatch.tree", "--fix", "--stdout"] ["// SPDX-License-Identifier: UNLICENSED\npragma solidity 0.8.0;\n\ncontract ContractName {\n    function test_ShouldHaveANameMismatchInTheContracts() external {\n        // It should match the result of `keccak256(abi.encodePacked(a,b))`.\n    }\n}\n", "1 issue fixed."]

-- `bulloak/tests/check.rs`: `fixes_contract_missing`
#guard fixes [("missing_contract.tree", "MissingContract\n└── It should not find a contract in the Solidity file.\n"), ("missing_contract.t.sol", "")] ["check", "missing_contract.tree", "--fix", "--stdout"] ["// SPDX-License-Identifier: UNLICENSED\npragma solidity 0.8.0;\n\ncontract MissingContract {\n    function test_ShouldNotFindAContractInTheSolidityFile() external {\n        // It should not find a contract in the Solidity file.\n    }\n}", "1 issue fixed."]

-- `bulloak/tests/check.rs`: `fixes_extra_codegen_tree`
#guard fixes [("extra_codegen_tree.tree", "HashPairTest\n├── It should never revert.\n├── When first arg is smaller than second arg\n│       └── It should match the result of `keccak256(abi.encodePacked(a,b))`.\n├── When first arg is smaller than third arg\n│       └── It should match the result of `keccak256(abi.encodePacked(a,b))`.\n└── When first arg is bigger than second arg\n        └── It should match the result of `keccak256(abi.encodePacked(b,a))`.\n"), ("extra_codegen_tree.t.sol", "// SPDX-License-Identifier: UNLICENSED\npragma solidity 0.8.0;\n\ncontract HashPairTest {\n  modifier whenFirstArgIsSmallerThanSecondArg() {\n    _;\n  }\n\n  function test_WhenFirstArgIsSmallerThanSecondArg()\n    external\n    whenFirstArgIsSmallerThanSecondArg\n  {\n    // It should match the result of `keccak256(abi.encodePacked(a,b))`.\n  }\n\n  modifier whenFirstArgIsBiggerThanSecondArg() {\n    _;\n  }\n\n  function thisIsAnotherExtraFunction() external {\n    // It has a random comment inside.\n  }\n\n  function test_WhenFirstArgIsBiggerThanSecondArg()\n    external\n    whenFirstArgIsBiggerThanSecondArg\n  {\n    // It should match the result of `keccak256(abi.encodePacked(b,a))`.\n  }\n}\n")] ["check", "extra_codegen_tree.tree", "--fix", "--stdout"] ["test_ShouldNeverRevert", "Third", "2 issues fixed."]

-- `bulloak/tests/check.rs`: `fixes_extra_fn_plus_wrong_order`
#guard fixes [("fix_extra_fn_plus_order.tree", "// https://github.com/alexfertel/bulloak/issues/56\nFoo\n├── when b\n│   └── it Y\n└── when a\n    └── it X\n"), ("fix_extra_fn_plus_order.t.sol", "// SPDX-License-Identifier: UNLICENSED\npragma solidity 0.8.0;\n\ncontract Foo {\n    function test_WhenA() external {\n        // it X\n    }\n\n    function test_WhenB() external {\n        // it Y\n    }\n\n    function test_WhenTheMethodIsCalledASecondTime() external {\n        // it Z\n    }\n}\n")] ["check", "fix_extra_fn_plus_order.tree", "--fix", "--stdout"] ["// SPDX-License-Identifier: UNLICENSED\npragma solidity 0.8.0;\n\ncontract Foo {\n    function test_WhenB() external {\n        // it Y\n    }\n\n    function test_WhenA() external {\n        // it X\n    }\n\n    // <<<<<<<<<<<<<<<<<<<<<<<<<<<<<<<<<<<<<<<<<<<<<<<<<<<<<<<<<<<<<<<<<<<<<<<<<\n    // ==================== BULLOAK AUTOGENERATED SEPARATOR ====================\n    // >>>>>>>>>>>>>>>>>>>>>>>>>>>>>>>>>>>>>>>>>>>>>>>>>>>>>>>>>>>>>>>>>>>>>>>>>\n    //    Code below this section could not be automatically moved by bulloak\n    // =========================================================================\n\n    function test_WhenTheMethodIsCalledASecondTime() external {\n        // it Z\n    }\n}", "1 issue fixed."]

-- `bulloak/tests/check.rs`: `fixes_invalid_structural_match`
#guard fixes [("invalid_sol_structure.tree", "CancelTest\n├── when delegate called\n│  └── it should revert\n└── when not delegate called\n   ├── given the id references a null stream\n   │  └── it should revert\n   └── given the id does not reference a null stream\n      ├── given the stream is cold\n      │  ├── given the stream's status is \"DEPLETED\"\n      │  │  └── it should revert\n      │  ├── given the stream's status is \"CANCELED\"\n      │  │  └── it should revert\n      │  └── given the stream's status is \"SETTLED\"\n      │     └── it should revert\n      └── given the stream is warm\n         └── when the caller is authorized\n            ├── given the stream is not cancelable\n            │  └── it should revert\n            ├── given the sender is not a contract\n            │  ├── it should cancel the stream\n            │  └── it should mark the stream as canceled\n            └── given the sender is a contract\n               ├── given the sender does not implement the hook\n               │  ├── it should cancel the stream\n               │  ├── it should mark the stream as canceled\n               │  ├── it should call the sender hook\n               │  └── it should ignore the revert\n               └── given the sender implements the hook\n                     ├── when the sender reverts\n                     │  ├── it should cancel the stream\n                     │  ├── it should mark the stream as canceled\n                     │  ├── it should call the sender hook\n                     │  └── it should ignore the revert\n                     └── when the sender does not revert\n                        ├── when there is reentrancy\n                        │  ├── it should cancel the stream\n                        │  ├── it should mark the stream as canceled\n                        │  ├── it should call the sender hook\n                        │  └── it should ignore the revert\n                        └── when there is no reentrancy\n                           ├── it should cancel the stream\n                           ├── it should mark the stream as canceled\n                           ├── it should make the stream not cancelable\n                           ├── it should update the refunded amount\n                           ├── it should refund the sender\n                           ├── it should call the sender hook\n                           ├── it should emit a {MetadataUpdate} event\n                           └── it should emit a {CancelLockupStream} event\n"), ("invalid_sol_structure.t.sol", "// SPDX-License-Identifier: UNLICENSED\npragma solidity 0.8.0;\n\ncontract CancelTest {\n  function test_RevertWhen_DelegateCalled() external {\n    // it should revert\n  }\n\n  modifier whenNotDelegateCalled() {\n    _;\n  }\n\n  function test_RevertGiven_TheIdReferencesANullStream()\n    external\n    whenNotDelegateCalled\n  {\n    // it should revert\n  }\n\n  modifier givenTheIdDoesNotReferenceANullStream() {\n    _;\n  }\n\n  function test_RevertGiven_TheStreamsStatusIsDEPLETED()\n    external\n    whenNotDelegateCalled\n    givenTheIdDoesNotReferenceANullStream\n    givenTheStreamIsCold\n  {\n    // it should revert\n  }\n\n  function test_RevertGiven_TheStreamsStatusIsSETTLED()\n    external\n    whenNotDelegateCalled\n    givenTheIdDoesNotReferenceANullStream\n    givenTheStreamIsCold\n  {\n    // it should revert\n  }\n\n  function test_RevertGiven_TheStreamsStatusIsCANCELED()\n    external\n    whenNotDelegateCalled\n    givenTheIdDoesNotReferenceANullStream\n    givenTheStreamIsCold\n  {\n    // it should revert\n  }\n\n  modifier givenTheStreamIsWarm() {\n    _;\n  }\n\n  modifier whenTheCallerIsAuthorized() {\n    _;\n  }\n\n  function test_RevertGiven_TheStreamIsNotCancelable()\n    external\n    whenNotDelegateCalled\n    givenTheIdDoesNotReferenceANullStream\n    givenTheStreamIsWarm\n    whenTheCallerIsAuthorized\n  {\n    // it should revert\n  }\n\n  function test_GivenTheSenderIsNotAContract()\n    external\n    whenNotDelegateCalled\n    givenTheIdDoesNotReferenceANullStream\n    givenTheStreamIsWarm\n    whenTheCallerIsAuthorized\n  {\n    // it should cancel the stream\n    // it should mark the stream as canceled\n  }\n\n  modifier givenTheSenderIsAContract() {\n    _;\n  }\n\n  function test_GivenTheSenderDoesNotImplementTheHook()\n    external\n    whenNotDelegateCalled\n    givenTheIdDoesNotReferenceANullStream\n    givenTheStreamIsWarm\n    whenTheCallerIsAuthorized\n    givenTheSenderIsAContract\n  {\n    // it should cancel the stream\n    // it should mark the stream as canceled\n    // it should call the sender hook\n    // it should ignore the revert\n  }\n\n  modifier givenTheSenderImplementsTheHook() {\n    _;\n  }\n\n  function test_WhenThereIsReentrancy()\n    external\n    whenNotDelegateCalled\n    givenTheIdDoesNotReferenceANullStream\n    givenTheStreamIsWarm\n    whenTheCallerIsAuthorized\n    givenTheSenderIsAContract\n    givenTheSenderImplementsTheHook\n    whenTheSenderDoesNotRevert\n  {\n    // it should cancel the stream\n    // it should mark the stream as canceled\n    // it should call the sender hook\n    // it should ignore the revert\n  }\n\n  function test_WhenTheSenderReverts()\n    external\n    whenNotDelegateCalled\n    givenTheIdDoesNotReferenceANullStream\n    givenTheStreamIsWarm\n    whenTheCallerIsAuthorized\n    givenTheSenderIsAContract\n    givenTheSenderImplementsTheHook\n  {\n    // it should cancel the stream\n    // it should mark the stream as canceled\n    // it should call the sender hook\n    // it should ignore the revert\n  }\n\n  function test_WhenThereIsNoReentrancy()\n    external\n    whenNotDelegateCalled\n    givenTheIdDoesNotReferenceANullStream\n    givenTheStreamIsWarm\n    whenTheCallerIsAuthorized\n    givenTheSenderIsAContract\n    givenTheSenderImplementsTheHook\n    whenTheSenderDoesNotRevert\n  {\n    // it should cancel the stream\n    // it should mark the stream as canceled\n    // it should make the stream not cancelable\n    // it should update the refunded amount\n    // it should refund the sender\n    // it should call the sender hook\n    // it should emit a {MetadataUpdate} event\n    // it should emit a {CancelLockupStream} event\n  }\n}\n")] ["check", "invalid_sol_structure.tree", "--fix", "--stdout"] ["// SPDX-License-Identifier: UNLICENSED\npragma solidity 0.8.0;\n\ncontract CancelTest {\n    function test_RevertWhen_DelegateCalled() external {\n        // it should revert\n    }\n\n    modifier whenNotDelegateCalled() {\n        _;\n    }\n\n    function test_RevertGiven_TheIdReferencesANullStream() external whenNotDelegateCalled {\n        // it should revert\n    }\n\n    modifier givenTheIdDoesNotReferenceANullStream() {\n        _;\n    }\n\n    modifier givenTheStreamIsCold() {\n        _;\n    }\n\n    function test_RevertGiven_TheStreamsStatusIsDEPLETED()\n        external\n        whenNotDelegateCalled\n        givenTheIdDoesNotReferenceANullStream\n        givenTheStreamIsCold\n    {\n        // it should revert\n    }\n\n    function test_RevertGiven_TheStreamsStatusIsCANCELED()\n        external\n        whenNotDelegateCalled\n        givenTheIdDoesNotReferenceANullStream\n        givenTheStreamIsCold\n    {\n        // it should revert\n    }\n\n    function test_RevertGiven_TheStreamsStatusIsSETTLED()\n        external\n        whenNotDelegateCalled\n        givenTheIdDoesNotReferenceANullStream\n        givenTheStreamIsCold\n    {\n        // it should revert\n    }\n\n    modifier givenTheStreamIsWarm() {\n        _;\n    }\n\n    modifier whenTheCallerIsAuthorized() {\n        _;\n    }\n\n    function test_RevertGiven_TheStreamIsNotCancelable()\n        external\n        whenNotDelegateCalled\n        givenTheIdDoesNotReferenceANullStream\n        givenTheStreamIsWarm\n        whenTheCallerIsAuthorized\n    {\n        // it should revert\n    }\n\n    function test_GivenTheSenderIsNotAContract()\n        external\n        whenNotDelegateCalled\n        givenTheIdDoesNotReferenceANullStream\n        givenTheStreamIsWarm\n        whenTheCallerIsAuthorized\n    {\n        // it should cancel the stream\n        // it should mark the stream as canceled\n    }\n\n    modifier givenTheSenderIsAContract() {\n        _;\n    }\n\n    function test_GivenTheSenderDoesNotImplementTheHook()\n        external\n        whenNotDelegateCalled\n        givenTheIdDoesNotReferenceANullStream\n        givenTheStreamIsWarm\n        whenTheCallerIsAuthorized\n        givenTheSenderIsAContract\n    {\n        // it should cancel the stream\n        // it should mark the stream as canceled\n        // it should call the sender hook\n        // it should ignore the revert\n    }\n\n    modifier givenTheSenderImplementsTheHook() {\n        _;\n    }\n\n    function test_WhenTheSenderReverts()\n        external\n        whenNotDelegateCalled\n        givenTheIdDoesNotReferenceANullStream\n        givenTheStreamIsWarm\n        whenTheCallerIsAuthorized\n        givenTheSenderIsAContract\n        givenTheSenderImplementsTheHook\n    {\n        // it should cancel the stream\n        // it should mark the stream as canceled\n        // it should call the sender hook\n        // it should ignore the revert\n    }\n\n    modifier whenTheSenderDoesNotRevert() {\n        _;\n    }\n\n    function test_WhenThereIsReentrancy()\n        external\n        whenNotDelegateCalled\n        givenTheIdDoesNotReferenceANullStream\n        givenTheStreamIsWarm\n        whenTheCallerIsAuthorized\n        givenTheSenderIsAContract\n        givenTheSenderImplementsTheHook\n        whenTheSenderDoesNotRevert\n    {\n        // it should cancel the stream\n        // it should mark the stream as canceled\n        // it should call the sender hook\n        // it should ignore the revert\n    }\n\n    function test_WhenThereIsNoReentrancy()\n        external\n        whenNotDelegateCalled\n        givenTheIdDoesNotReferenceANullStream\n        givenTheStreamIsWarm\n        whenTheCallerIsAuthorized\n        givenTheSenderIsAContract\n        givenTheSenderImplementsTheHook\n        whenTheSenderDoesNotRevert\n    {\n        // it should cancel the stream\n        // it should mark the stream as canceled\n        // it should make the stream not cancelable\n        // it should update the refunded amount\n        // it should refund the sender\n        // it should call the sender hook\n        // it should emit a {MetadataUpdate} event\n        // it should emit a {CancelLockupStream} event\n    }\n}", "4 issues fixed."]

end Bulloak.Conformance
