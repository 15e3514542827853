# Reasons for functions without a model, used by tools/coverage.py.
for f in ["cmd/bnb.go:init", "cmd/lasso.go:init", "cmd/sasearch.go:init", "cmd/root.go:Execute", "cmd/root.go:init",
          "cmd/root.go:initConfig"]:
    reasons[f] = "wiring of the command line library"
reasons["featselect/optimize.go:all"] = "not called by any function"
