/-!
# Common vocabulary of the model

Python `bytes` are lists of `UInt8`, python `str` are lists of `Char` (so strings with lone
surrogates are outside the model), exceptions are values of `PyErr`.
-/

namespace Verif

/-- python `bytes` -/
abbrev Bytes := List UInt8

/-- python `str` without lone surrogates -/
abbrev Str := List Char

/-- The exceptions that the modelled code raises or lets through.  The payload (message) is not
modelled. -/
inductive PyErr where
  | valueError
  | typeError
  | attributeError
  | indexError
  | keyError
  | stopIteration
  | runtimeError
  | unboundLocalError
  | assertionError
  | nameError
  | notImplementedError
  | fileNotFoundError
  | fileExistsError
  | notADirectoryError
  | isADirectoryError
  | osError
  | nameTooLongError
  | permissionError
  | noStreamError
  | unhandledTypeError
  | circularSymlinkNameError
  | pathExistsError
  | whyDidntThisGetMovedBeforeError
  | metadataIdMismatchError
  | localChangesError
  | noCachedMetadataError
  | noRemoteFileError
  | willNotRemovePathError
  | repoExistsError
  | gitError
  | bootstrappingError
  | sizeError
  | remotePathExistsError
  | cacheExistsError
  | notInProjectError
  | augPathlibError
  | baseException
  /-- an exception raised by a caller supplied stream or by a remote api -/
  | foreign
  deriving DecidableEq, Repr, Inhabited

end Verif
